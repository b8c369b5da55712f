import Verif.CalcInput.Lemmas
import Verif.Topology.Props

/-!
# Preparing the input of a calculation (C58): theorems
-/

namespace PGM.CalcInput

open PGM.Topology PGM.Container

variable {A : Type} [AddGroup A]

theorem Delivers.congr {P : Type} {n : Nat} {want want' : Nat → Option (Nat × Nat)} {val val' : Nat → Option P} {place place' : Nat → Option (Nat × Nat)}
    {objs : Nat → List Nat} {v : List (List P)} (h : Delivers n want val place objs v) (hw : ∀ i, i < n → want' i = want i) (hv : ∀ i, i < n → val' i = val i)
    (hp : ∀ i, i < n → place' i = place i) : Delivers n want' val' place' objs v := by
  refine ⟨fun i hi g o e => ?_, fun i hi e => ?_, fun g p x e => ?_, h.sizes⟩
  · rw [hw i hi] at e
    rw [hp i hi, hv i hi]
    exact h.there i hi g o e
  · rw [hw i hi] at e
    rw [hp i hi]
    exact h.absent i hi e
  · obtain ⟨i, hi, h1, h2⟩ := h.only g p x e
    refine ⟨i, hi, by rw [hp i hi]; exact h1, fun i' hi' e' => h2 i' hi' ?_⟩
    rw [hp i' hi'] at e'
    exact e'

theorem bind_ok {α β : Type} (x : α) (f : α → Except Stop β) : (Except.ok x >>= f) = f x := rfl

theorem lift_some {α : Type} (x : α) : lift (some x) = .ok x := rfl

theorem nth_ok {α P : Type} {l : List α} (f : α → P) {i : Nat} (hi : i < l.length) : ∃ x, nth l f i = .ok x := by
  unfold nth lift
  rw [List.getElem?_eq_getElem hi]
  exact ⟨_, rfl⟩

theorem nth_val {α P : Type} (l : List α) (f : α → P) (i : Nat) : (nth l f i).toOption = l[i]?.map f := by
  unfold nth lift
  cases l[i]? <;> rfl

/-- Where an appliance of a list of components with their nodes belongs. -/
theorem appliance_delivers {P α : Type} {G : Grid A} (h : G.Valid) {s : State A} {c : Coupled} (hb : build G = some (s, c)) (criterion : Nat → Nat → Bool)
    (l : List α) (node : α → Nat) (on : Nat → Bool) {dense : Nat → List Nat} {coup : Nat → Option (Nat × Nat)}
    (hc : coupleAppliances criterion s (l.map node) on = some (dense, coup)) {β : Type} (l' : List β) (hl : l'.length = l.length) (f : β → P) (d : P) :
    ∃ v, prepareInput (nth l' f) coup (fun _ => true) l.length (resized d (fun g => (dense g).length) s.islands.length) = .ok v ∧ v.length = s.islands.length ∧
      Delivers l.length (fun i => if on i then l[i]?.bind fun x => s.node (node x) else none) (fun i => l'[i]?.map f) coup dense v := by
  obtain ⟨dense', coup', h1, h2, _⟩ := appliance_coupling h hb criterion (l.map node) on
  rw [hc] at h1
  simp only [Option.some.injEq, Prod.mk.injEq] at h1
  obtain ⟨rfl, rfl⟩ := h1
  rw [List.length_map] at h2
  obtain ⟨v, k1, k2, k3⟩ := delivers_of h2 d (nth l' f) fun i hi _ _ => nth_ok f (by rw [hl]; exact hi)
  refine ⟨v, k1, k2, k3.congr (fun i _ => ?_) (fun i _ => (nth_val l' f i).symm) fun i _ => rfl⟩
  unfold wantAt
  rw [List.getElem?_map]
  cases l[i]? <;> rfl

/-- **C58, power flow.** For every valid grid without both kinds of regulators, which is what the check of the state before a power flow allows (C41), the
preparation succeeds. The injections and the statuses of loads and generators reach the solver at the island and bus of their node exactly if that node is
energised, both at the same place; so do the sources that are connected; and the voltage regulators reach it exactly if their load or generator does, and
there. Nothing else is in the input. -/
theorem power_flow_input {C V R : Type} [Inhabited C] [Inhabited V] [Inhabited R] (criterion : Nat → Nat → Bool) (S : PfComponents A C V R)
    (hv : S.grid.Valid) (hs : S.source.length = S.grid.sources.length) (hr : S.taps = 0 ∨ S.regulator = []) :
    ∃ s c I loadPlace sourcePlace regulatorPlace, build S.grid = some (s, c) ∧ preparePowerFlow criterion S = .ok I ∧
      (∀ x, s.node x ≠ none ↔ Energised S.grid x) ∧
      Delivers S.load.length (fun i => S.load[i]?.bind fun x => s.node x.1) (fun i => S.load[i]?.map fun x => x.2.1) loadPlace I.loadBus I.injection ∧
      Delivers S.load.length (fun i => S.load[i]?.bind fun x => s.node x.1) (fun i => S.load[i]?.map fun x => x.2.2) loadPlace I.loadBus I.status ∧
      Delivers S.source.length (fun i => S.grid.sources[i]?.bind fun x => if x.2 then s.node x.1 else none) (fun i => S.source[i]?) sourcePlace
        I.sourceBus I.source ∧
      Delivers S.regulator.length (fun i => S.regulator[i]?.bind fun x => loadPlace x.1) (fun i => S.regulator[i]?.map fun x => x.2) regulatorPlace
        I.regulatorLoad I.regulator ∧
      I.source.length = s.islands.length ∧ I.injection.length = s.islands.length ∧ I.regulator.length = s.islands.length ∧
      I.status.length = s.islands.length := by
  obtain ⟨s, c, hb⟩ := build_total hv
  obtain ⟨loadBus, loadCoup, hl, hlc, hlo⟩ := appliance_coupling hv hb criterion (S.load.map (·.1)) fun _ => true
  obtain ⟨sourceBus, sourceCoup, hso, -, -⟩ := appliance_coupling hv hb criterion (S.grid.sources.map (·.1)) fun i => S.grid.sources[i]?.any (·.2)
  rw [List.length_map] at hlc hlo
  obtain ⟨regLoad, regCoup, hre, hrc, -⟩ := object_coupling criterion (fun i => S.regulator[i - S.taps]?.bind fun r => loadCoup r.1)
    (fun i => decide (S.taps ≤ i)) (S.taps + S.regulator.length) s.islands.length (fun g => (loadBus g).length) (fun i g o hf => by
      cases hx : S.regulator[i - S.taps]? with
      | none => rw [hx] at hf; cases hf
      | some r =>
        rw [hx] at hf
        have hf : loadCoup r.1 = some (g, o) := hf
        by_cases hlt : r.1 < S.load.length
        · exact hlc.range hlt rfl hf
        · rw [hlo r.1 (by omega)] at hf; cases hf)
  have hreg : coupleRegulators criterion S.taps S.regulator s.islands.length loadBus loadCoup = some (regLoad, regCoup) := hre
  obtain ⟨vs, a1, a2, a3⟩ := appliance_delivers hv hb criterion S.grid.sources (·.1) (fun i => S.grid.sources[i]?.any (·.2)) hso S.source hs id (default : C)
  obtain ⟨vi, b1, b2, b3⟩ := appliance_delivers hv hb criterion S.load (·.1) (fun _ => true) hl S.load rfl (·.2.1) (default : V)
  obtain ⟨vt, d1, d2, d3⟩ := appliance_delivers hv hb criterion S.load (·.1) (fun _ => true) hl S.load rfl (·.2.2) false
  obtain ⟨vr, e1, e2, e3⟩ := delivers_of hrc (default : R) (nth S.regulator (·.2)) (fun i hi _ hw => by
    rcases hr with hr | hr
    · exact nth_ok _ (by omega)
    · exfalso
      rw [hr] at hw
      simp at hw)
  refine ⟨s, c, ⟨sourceBus, loadBus, regLoad, vs, vi, vr, vt⟩, loadCoup, sourceCoup, regCoup, hb, ?_, energised_iff hv hb, b3.congr (fun i _ => ?_)
    (fun _ _ => rfl) (fun _ _ => rfl), d3.congr (fun i _ => ?_) (fun _ _ => rfl) (fun _ _ => rfl), ?_, ?_, a2, b2, e2, d2⟩
  · unfold preparePowerFlow
    simp only [hb, hl, hso, hreg, a1, b1, d1, e1, lift_some, bind_ok]
  · simp
  · simp
  · rw [hs]
    refine a3.congr (fun i hi => ?_) (fun i _ => by simp) fun _ _ => rfl
    rw [List.getElem?_eq_getElem hi]
    rfl
  · rcases hr with hr | hr
    · have : S.regulator.length = S.taps + S.regulator.length := by omega
      rw [this]
      refine e3.congr (fun i _ => ?_) (fun i _ => (nth_val _ _ i).symm) fun _ _ => rfl
      simp [hr]
    · rw [hr]
      refine ⟨fun i hi => absurd hi (by simp), fun i hi => absurd hi (by simp), fun g p x hx => ?_, e3.sizes⟩
      exfalso
      obtain ⟨i, hi, k1, _⟩ := e3.only g p x hx
      have := hrc.none_ i hi rfl (by rw [hr]; simp)
      simp only [if_true] at k1
      rw [this] at k1
      cases k1

/-! ## State estimation -/

/-- The sensors of one kind of object. -/
theorem sensor_delivers {W : Type} [Inhabited W] {O : Objects} {nI : Nat} {nObj : Kind → Nat → Nat} (hr : O.InRange nI nObj)
    (sensors : List (Terminal × Nat × W)) {kinds : List Kind} {st : SensorState}
    (h : SensorsOk O nI (sensors.map fun x => (x.1, x.2.1)) kinds st) (k : Kind) (hk : k ∈ kinds) :
    ∃ v, prepareSensors sensors st nI k = .ok v ∧ v.length = nI ∧
      Delivers sensors.length (fun i => sensors[i]?.bind fun x => if (measures O x.1 x.2.1).1 = k then (measures O x.1 x.2.1).2 else none)
        (fun i => sensors[i]?.map fun x => x.2.2) (fun i => sensors[i]?.bind fun x => if (measures O x.1 x.2.1).1 = k then st.2 i else none) (st.1 k) v := by
  have hmap : ∀ (i : Nat) x, sensors[i]? = some x → (sensors.map fun x => (x.1, x.2.1))[i]? = some (x.1, x.2.1) := by
    intro i x e
    rw [List.getElem?_map, e]
    rfl
  have hinc : ∀ (i : Nat) x, sensors[i]? = some x → ((sensors[i]?.any fun x => taken k x.1) = true ↔ (measures O x.1 x.2.1).1 = k) := by
    intro i x e
    rw [e]
    exact taken_iff O k x.1 x.2.1
  have hcoup : Coupling sensors.length nI (fun i => sensors[i]?.any fun x => taken k x.1) (fun i => sensors[i]?.bind fun x => (measures O x.1 x.2.1).2)
      st.2 (st.1 k) := by
    refine ⟨fun i hi hin g o hw => ?_, fun i hi hin hw => ?_, fun g p hg hp => ?_⟩
    · have e := List.getElem?_eq_getElem hi
      have hkk := (hinc i _ e).mp hin
      rw [e] at hw
      have hw : (measures O sensors[i].1 sensors[i].2.1).2 = some (g, o) := hw
      refine ⟨(hr _ _ _ _ hw).1, ?_⟩
      have := h.coupled i _ _ g o (hmap i _ e) (by rw [hkk]; exact hk) hw
      rw [hkk] at this
      exact this
    · have e := List.getElem?_eq_getElem hi
      rw [e] at hw
      have hw : (measures O sensors[i].1 sensors[i].2.1).2 = none := hw
      refine h.uncoupled i fun t x g q e' _ e'' => ?_
      rw [hmap i _ e] at e'
      simp only [Option.some.injEq, Prod.mk.injEq] at e'
      obtain ⟨rfl, rfl⟩ := e'
      rw [hw] at e''
      cases e''
    · obtain ⟨i, t, x, e1, e2, e3, e4⟩ := h.places k g p hg hp
      have hi : i < sensors.length := by
        have := (List.getElem?_eq_some_iff.mp e1).1
        rwa [List.length_map] at this
      have e := List.getElem?_eq_getElem hi
      have e' := hmap i _ e
      rw [e1] at e'
      simp only [Option.some.injEq, Prod.mk.injEq] at e'
      obtain ⟨rfl, rfl⟩ := e'
      refine ⟨i, hi, (hinc i _ e).mpr e2, e3, fun i' hi' hin' hc' => ?_⟩
      have e'' := List.getElem?_eq_getElem hi'
      exact e4 i' _ _ (hmap i' _ e'') ((hinc i' _ e'').mp hin') hc'
  obtain ⟨v, k1, k2, k3⟩ := delivers_of hcoup (default : W) (nth sensors (·.2.2)) fun i hi _ _ => nth_ok _ hi
  refine ⟨v, k1, k2, k3.congr (fun i hi => ?_) (fun i _ => (nth_val _ _ i).symm) fun i hi => ?_⟩
  · have e := List.getElem?_eq_getElem hi
    have := hinc i _ e
    by_cases hkk : (measures O sensors[i].1 sensors[i].2.1).1 = k
    · rw [if_pos (this.mpr hkk), e]
      simp [hkk]
    · rw [if_neg fun e => hkk (this.mp e), e]
      simp [hkk]
  · have e := List.getElem?_eq_getElem hi
    have := hinc i _ e
    by_cases hkk : (measures O sensors[i].1 sensors[i].2.1).1 = k
    · rw [if_pos (this.mpr hkk), e]
      simp [hkk]
    · rw [if_neg fun e => hkk (this.mp e), e]
      simp [hkk]

/-- **C58, state estimation.** For every valid grid with current sensors at branches only, which is what their construction enforces, the preparation succeeds.
The statuses of shunts, loads, generators and connected sources and the voltage measurements reach the solver at the island and bus of their node exactly if
that node is energised. The power and current measurements reach it exactly if what they measure takes part in the calculation, in the vector for that kind of
object, and at that object. Nothing else is in the input. -/
theorem state_estimation_input {V W I : Type} [Inhabited V] [Inhabited W] [Inhabited I] (criterion : Nat → Nat → Bool) (S : SeComponents A V W I)
    (hv : S.grid.Valid) (hc : ∀ x ∈ S.current, x.1 = .branchFrom ∨ x.1 = .branchTo ∨ ∃ m, x.1 = .branch3 m) :
    ∃ (s : State A) (c : Coupled) (J : SeInput V W I) (O : Objects) (voltagePlace powerPlace currentPlace : Nat → Option (Nat × Nat)), build S.grid = some (s, c) ∧ prepareEstimation criterion S = .ok J ∧
      (∀ x, s.node x ≠ none ↔ Energised S.grid x) ∧
      (∀ x, O.node x = s.node x) ∧ (∀ k, O.branch k = c.branch[k]?.getD none) ∧ (∀ k, O.branch3 k = c.branch3[k]?.getD none) ∧
      Delivers S.shunt.length (fun i => S.shunt[i]?.bind fun x => s.node x.1) (fun i => S.shunt[i]?.map fun x => x.2) O.shunt J.shuntBus J.shuntStatus ∧
      Delivers S.load.length (fun i => S.load[i]?.bind fun x => s.node x.1) (fun i => S.load[i]?.map fun x => x.2) O.loadGen J.loadBus J.loadStatus ∧
      Delivers S.grid.sources.length (fun i => S.grid.sources[i]?.bind fun x => if x.2 then s.node x.1 else none) (fun i => S.grid.sources[i]?.map fun x => x.2)
        O.source J.sourceBus J.sourceStatus ∧
      Delivers S.voltage.length (fun i => S.voltage[i]?.bind fun x => s.node x.1) (fun i => S.voltage[i]?.map fun x => x.2) voltagePlace J.voltageBus
        J.voltage ∧
      (∀ k, Delivers S.power.length (fun i => S.power[i]?.bind fun x => if (measures O x.1 x.2.1).1 = k then (measures O x.1 x.2.1).2 else none)
        (fun i => S.power[i]?.map fun x => x.2.2) (fun i => S.power[i]?.bind fun x => if (measures O x.1 x.2.1).1 = k then powerPlace i else none)
        (J.powerObject k) (J.power k)) ∧
      (∀ k, Delivers S.current.length (fun i => S.current[i]?.bind fun x => if (measures O x.1 x.2.1).1 = k then (measures O x.1 x.2.1).2 else none)
        (fun i => S.current[i]?.map fun x => x.2.2) (fun i => S.current[i]?.bind fun x => if (measures O x.1 x.2.1).1 = k then currentPlace i else none)
        (J.currentObject k) (J.current k)) ∧
      J.shuntStatus.length = s.islands.length ∧ J.loadStatus.length = s.islands.length ∧ J.sourceStatus.length = s.islands.length ∧
      J.voltage.length = s.islands.length ∧ (∀ k, (J.power k).length = s.islands.length) ∧ (J.current .branchFrom).length = s.islands.length ∧
      (J.current .branchTo).length = s.islands.length := by
  obtain ⟨s, c, hb⟩ := build_total hv
  obtain ⟨shuntBus, shuntCoup, hh, -, hho⟩ := appliance_coupling hv hb criterion (S.shunt.map (·.1)) fun _ => true
  obtain ⟨loadBus, loadCoup, hl, -, hlo⟩ := appliance_coupling hv hb criterion (S.load.map (·.1)) fun _ => true
  obtain ⟨sourceBus, sourceCoup, hs, -, hso⟩ := appliance_coupling hv hb criterion (S.grid.sources.map (·.1)) fun i => S.grid.sources[i]?.any (·.2)
  obtain ⟨voltageBus, voltageCoup, hvo, -, -⟩ := appliance_coupling hv hb criterion (S.voltage.map (·.1)) fun _ => true
  let O : Objects := ⟨s.node, fun k => c.branch[k]?.getD none, fun k => c.branch3[k]?.getD none, sourceCoup, shuntCoup, loadCoup⟩
  have hm : Measured S.grid s c (S.grid.sources.map (·.1)) (S.shunt.map (·.1)) (S.load.map (·.1)) (fun i => S.grid.sources[i]?.any (·.2)) O
      (objectCount s c sourceBus shuntBus loadBus) :=
    ⟨fun _ => rfl, fun _ => rfl, fun _ => rfl, ⟨criterion, sourceBus, sourceCoup, hs, fun _ _ => rfl, hso, fun _ => rfl⟩,
      ⟨criterion, shuntBus, shuntCoup, hh, fun _ _ => rfl, hho, fun _ => rfl⟩, ⟨criterion, loadBus, loadCoup, hl, fun _ _ => rfl, hlo, fun _ => rfl⟩,
      fun _ => rfl, fun _ => ⟨rfl, rfl⟩⟩
  have hr := measured_in_range hv hb hm
  obtain ⟨power, hp, hpo⟩ := passes_ok criterion hr (S.power.map fun x => (x.1, x.2.1)) [.source, .shunt, .loadGen, .branchFrom, .branchTo, .bus]
    (start_ok O s.islands.length _) (by decide)
  obtain ⟨current, hcu, hco⟩ := passes_ok criterion hr (S.current.map fun x => (x.1, x.2.1)) [.branchFrom, .branchTo]
    (start_ok O s.islands.length _) (by decide)
  rw [List.nil_append] at hpo hco
  have hp : couplePowerSensors criterion ⟨s.node, fun k => c.branch[k]?.getD none, fun k => c.branch3[k]?.getD none, sourceCoup, shuntCoup, loadCoup⟩
    s.islands.length (objectCount s c sourceBus shuntBus loadBus) (S.power.map fun x => (x.1, x.2.1)) = some power := hp
  have hcu : coupleCurrentSensors criterion ⟨s.node, fun k => c.branch[k]?.getD none, fun k => c.branch3[k]?.getD none, sourceCoup, shuntCoup, loadCoup⟩
    s.islands.length (objectCount s c sourceBus shuntBus loadBus) (S.current.map fun x => (x.1, x.2.1)) =
    some current := hcu
  obtain ⟨vh, a1, a2, a3⟩ := appliance_delivers hv hb criterion S.shunt (·.1) (fun _ => true) hh S.shunt rfl (·.2) false
  obtain ⟨vl, b1, b2, b3⟩ := appliance_delivers hv hb criterion S.load (·.1) (fun _ => true) hl S.load rfl (·.2) false
  obtain ⟨vs, d1, d2, d3⟩ := appliance_delivers hv hb criterion S.grid.sources (·.1) (fun i => S.grid.sources[i]?.any (·.2)) hs S.grid.sources rfl (·.2) false
  obtain ⟨vv, e1, e2, e3⟩ := appliance_delivers hv hb criterion S.voltage (·.1) (fun _ => true) hvo S.voltage rfl (·.2) (default : V)
  choose vp f1 f2 f3 using fun k => sensor_delivers hr S.power hpo k (by cases k <;> simp)
  obtain ⟨cf, g1, g2, g3⟩ := sensor_delivers hr S.current hco .branchFrom (by simp)
  obtain ⟨ct, k1, k2, k3⟩ := sensor_delivers hr S.current hco .branchTo (by simp)
  let J : SeInput V W I := ⟨sourceBus, shuntBus, loadBus, voltageBus, power.1, current.1, vs, vh, vl, vv,
    fun k => match k with
      | .source => vp .source | .loadGen => vp .loadGen | .shunt => vp .shunt | .branchFrom => vp .branchFrom | .branchTo => vp .branchTo | .bus => vp .bus,
    fun k => match k with | .branchFrom => cf | .branchTo => ct | _ => []⟩
  refine ⟨s, c, J, O, voltageCoup, power.2, current.2, hb, ?_, energised_iff hv hb, fun _ => rfl, fun _ => rfl, fun _ => rfl,
    a3.congr (fun i _ => ?_) (fun _ _ => rfl) (fun _ _ => rfl), b3.congr (fun i _ => ?_) (fun _ _ => rfl) (fun _ _ => rfl),
    d3.congr (fun i hi => ?_) (fun _ _ => rfl) (fun _ _ => rfl), e3.congr (fun i _ => ?_) (fun _ _ => rfl) (fun _ _ => rfl), fun k => ?_, fun k => ?_,
    a2, b2, d2, e2, fun k => ?_, g2, k2⟩
  · unfold prepareEstimation
    simp only [hb, hh, hl, hs, hvo, lift_some, bind_ok]
    simp only [hp, hcu, a1, b1, d1, e1, f1, g1, k1, lift_some, bind_ok, J]
    rfl
  · simp
  · simp
  · rw [List.getElem?_eq_getElem hi]
    rfl
  · simp
  · cases k <;> exact f3 _
  · cases k
    case branchFrom => exact g3
    case branchTo => exact k3
    all_goals
      have hno : ∀ (i : Nat) (x : Terminal × Nat × I), S.current[i]? = some x → (measures O x.1 x.2.1).1 = .branchFrom ∨ (measures O x.1 x.2.1).1 = .branchTo := by
        intro i x e
        rcases hc x (List.mem_of_getElem? e) with e | e | ⟨m, e⟩ <;> rw [e] <;> simp [measures]
      refine ⟨fun i hi g o e => ?_, fun i hi e => ?_, fun g p x e => ?_, fun g l e => ?_⟩
      · exfalso
        have e' := List.getElem?_eq_getElem hi
        rw [e'] at e
        rcases hno i _ e' with e'' | e'' <;> simp [e''] at e
      · have e' := List.getElem?_eq_getElem hi
        rw [e']
        rcases hno i _ e' with e'' | e'' <;> simp [e'']
      · cases e
      · cases e
  · cases k <;> exact f2 _

end PGM.CalcInput
