import Verif.Topology.Props

/-!
# The coupling of sensors (C12)

Prefix of all paths: `P/` = `/repo/power_grid_model_c/power_grid_model/include/power_grid_model/`. Model of `couple_sensors`, `P/topology.hpp` lines
602-697, and its object finders, lines 464-503. Same simplifications as in `Verif.Topology.Model`.
-/

namespace PGM.Topology

variable {A : Type} [AddGroup A]

/-- `MeasuredTerminalType`, `P/common/enum.hpp` lines 43-54. -/
inductive Terminal where
  | branchFrom
  | branchTo
  | source
  | shunt
  | load
  | generator
  | branch3 (m : Fin 3)
  | node
  deriving DecidableEq

/-- The members of `MathModelTopology` that receive power sensors or current sensors. -/
inductive Kind where
  | source
  | shunt
  | loadGen
  | branchFrom
  | branchTo
  | bus
  deriving DecidableEq

/-- `TopologicalComponentToMathCoupling` (`P/calculation_parameters.hpp`): where the measured objects are. -/
structure Objects where
  node : Nat → Option (Nat × Nat)
  branch : Nat → Option (Nat × Nat)
  branch3 : Nat → Option (Nat × (Fin 3 → Nat))
  source : Nat → Option (Nat × Nat)
  shunt : Nat → Option (Nat × Nat)
  loadGen : Nat → Option (Nat × Nat)

/-- The predicates, lines 614, 621, 629-630, 637-643, 658, 666: which sensors a pass takes. -/
def takes (k : Kind) (t : Terminal) : Bool :=
  match k with
  | .source => t = .source
  | .shunt => t = .shunt
  | .loadGen => t = .load || t = .generator
  | .branchFrom => t = .branchFrom || t = .branch3 0 || t = .branch3 1 || t = .branch3 2
  | .branchTo => t = .branchTo
  | .bus => t = .node

/-- The object finder of a pass: `SingleTypeObjectFinder` with the coupling of the objects, or `SensorBranchObjectFinder`, lines 466-503. The
`default` of the switch, an assertion, gives `none`; it is not reached because such sensors are not taken. -/
def findObject (O : Objects) (k : Kind) (t : Terminal) (obj : Nat) : Option (Nat × Nat) :=
  match k with
  | .source => O.source obj
  | .shunt => O.shunt obj
  | .loadGen => O.loadGen obj
  | .branchTo => O.branch obj
  | .bus => O.node obj
  | .branchFrom =>
    match t with
    | .branchFrom => O.branch obj
    | .branch3 0 => (O.branch3 obj).map fun x => (x.1, x.2 0)
    | .branch3 1 => (O.branch3 obj).map fun x => (x.1, x.2 1)
    | .branch3 2 => (O.branch3 obj).map fun x => (x.1, x.2 2)
    | _ => none

/-- Where every sensor is, and per kind and island the measured object of every sensor. -/
abbrev SensorState := (Kind → Nat → List Nat) × (Nat → Option (Nat × Nat))

/-- One call of `couple_object_components`. `nObj` is the number of objects of each kind in an island. -/
def sensorPass (criterion : Nat → Nat → Bool) (O : Objects) (nIsland : Nat) (nObj : Kind → Nat → Nat) (sensors : List (Terminal × Nat))
    (st : SensorState) (k : Kind) : Option SensorState := do
  let r ← coupleObjects criterion (fun i => sensors[i]?.bind fun x => findObject O k x.1 x.2) (fun i => sensors[i]?.any fun x => takes k x.1)
    sensors.length nIsland (nObj k) st.2
  some (Function.update st.1 k r.1, r.2)

/-- The power sensors in `couple_sensors`, lines 609-666. -/
def couplePowerSensors (criterion : Nat → Nat → Bool) (O : Objects) (nIsland : Nat) (nObj : Kind → Nat → Nat) (sensors : List (Terminal × Nat)) :
    Option SensorState :=
  [Kind.source, .shunt, .loadGen, .branchFrom, .branchTo, .bus].foldlM (sensorPass criterion O nIsland nObj sensors) (fun _ _ => [], fun _ => none)

/-- The current sensors in `couple_sensors`, lines 668-696. -/
def coupleCurrentSensors (criterion : Nat → Nat → Bool) (O : Objects) (nIsland : Nat) (nObj : Kind → Nat → Nat) (sensors : List (Terminal × Nat)) :
    Option SensorState :=
  [Kind.branchFrom, .branchTo].foldlM (sensorPass criterion O nIsland nObj sensors) (fun _ _ => [], fun _ => none)

/-! ## Specification -/

/-- What a sensor measures, in terms of the calculation: the kind of object, and which. The sides of branches with three sides are the from sides
of their branches. -/
def measures (O : Objects) : Terminal → Nat → Kind × Option (Nat × Nat)
  | .branchFrom, x => (.branchFrom, O.branch x)
  | .branchTo, x => (.branchTo, O.branch x)
  | .source, x => (.source, O.source x)
  | .shunt, x => (.shunt, O.shunt x)
  | .load, x => (.loadGen, O.loadGen x)
  | .generator, x => (.loadGen, O.loadGen x)
  | .branch3 m, x => (.branchFrom, (O.branch3 x).map fun y => (y.1, y.2 m))
  | .node, x => (.bus, O.node x)

/-- All objects are in range. -/
def Objects.InRange (O : Objects) (nIsland : Nat) (nObj : Kind → Nat → Nat) : Prop :=
  ∀ t x g q, (measures O t x).2 = some (g, q) → g < nIsland ∧ q < nObj (measures O t x).1 g

/-- Sensors are where they belong: a sensor is coupled exactly if what it measures is, it then is a sensor of that object, and every place of a
sensor belongs to exactly one sensor. -/
structure SensorsOk (O : Objects) (nIsland : Nat) (sensors : List (Terminal × Nat)) (kinds : List Kind) (st : SensorState) : Prop where
  coupled : ∀ (i : Nat) t x g q, sensors[i]? = some (t, x) → (measures O t x).1 ∈ kinds → (measures O t x).2 = some (g, q) →
    ∃ p, st.2 i = some (g, p) ∧ (st.1 (measures O t x).1 g)[p]? = some q
  uncoupled : ∀ (i : Nat), (∀ t x g q, sensors[i]? = some (t, x) → (measures O t x).1 ∈ kinds → (measures O t x).2 ≠ some (g, q)) → st.2 i = none
  places : ∀ k g p, g < nIsland → p < (st.1 k g).length →
    ∃ i t x, sensors[i]? = some (t, x) ∧ (measures O t x).1 = k ∧ st.2 i = some (g, p) ∧
      ∀ (i' : Nat) t' x', sensors[i']? = some (t', x') → (measures O t' x').1 = k → st.2 i' = some (g, p) → i' = i

/-! ## Proof -/

theorem takes_iff (O : Objects) (k : Kind) (t : Terminal) (x : Nat) : takes k t = true ↔ (measures O t x).1 = k := by
  cases k <;> cases t <;> simp [takes, measures]
  all_goals rename_i m; fin_cases m <;> simp

theorem find_eq (O : Objects) (t : Terminal) (x : Nat) : findObject O (measures O t x).1 t x = (measures O t x).2 := by
  cases t <;> simp [findObject, measures]
  rename_i m; fin_cases m <;> rfl

theorem pass_ok (criterion : Nat → Nat → Bool) {O : Objects} {nIsland : Nat} {nObj : Kind → Nat → Nat} (hr : O.InRange nIsland nObj)
    (sensors : List (Terminal × Nat)) {kinds : List Kind} {st : SensorState} (h : SensorsOk O nIsland sensors kinds st) (k : Kind) (hk : k ∉ kinds) :
    ∃ st', sensorPass criterion O nIsland nObj sensors st k = some st' ∧ SensorsOk O nIsland sensors (kinds ++ [k]) st' := by
  have hinc : ∀ i : Nat, (sensors[i]?.any fun x => takes k x.1) = true ↔ ∃ t x, sensors[i]? = some (t, x) ∧ (measures O t x).1 = k := by
    intro i
    cases hs : sensors[i]? with
    | none => simp
    | some y => simp only [Option.any_some, takes_iff O k y.1 y.2, Option.some.injEq]; exact ⟨fun e => ⟨y.1, y.2, rfl, e⟩, fun ⟨t, x, e1, e2⟩ => by rw [e1]; exact e2⟩
  -- outside of the taken sensors the finder does not matter
  have hcongr : ∀ i : Nat, (sensors[i]?.any fun x => takes k x.1) = true →
      (sensors[i]?.bind fun x => findObject O k x.1 x.2) = sensors[i]?.bind fun x => (measures O x.1 x.2).2 := by
    intro i hi
    obtain ⟨t, x, h1, h2⟩ := (hinc i).mp hi
    rw [h1]
    simp only [Option.bind_some]
    rw [← h2, find_eq]
  have hcol : ∀ g, collectFor (fun i => sensors[i]?.bind fun x => findObject O k x.1 x.2) (fun i => sensors[i]?.any fun x => takes k x.1) sensors.length g =
      collectFor (fun i => if (sensors[i]?.any fun x => takes k x.1) = true then sensors[i]?.bind fun x => (measures O x.1 x.2).2 else none)
        (fun i => sensors[i]?.any fun x => takes k x.1) sensors.length g := by
    intro g
    unfold collectFor
    congr 1
    funext i
    by_cases hi : (sensors[i]?.any fun x => takes k x.1) = true
    · rw [if_pos hi, if_pos hi]
      beta_reduce
      rw [hcongr i hi, if_pos hi]
    · rw [if_neg hi, if_neg hi]
  have hsame : coupleObjects criterion (fun i => sensors[i]?.bind fun x => findObject O k x.1 x.2) (fun i => sensors[i]?.any fun x => takes k x.1)
      sensors.length nIsland (nObj k) st.2 =
      coupleObjects criterion (fun i => if (sensors[i]?.any fun x => takes k x.1) = true then sensors[i]?.bind fun x => (measures O x.1 x.2).2 else none)
        (fun i => sensors[i]?.any fun x => takes k x.1) sensors.length nIsland (nObj k) st.2 := by
    unfold coupleObjects
    congr 1
    funext s g
    unfold coupleIsland
    rw [hcol]
  have hfind : ∀ (i g o : Nat), (if (sensors[i]?.any fun x => takes k x.1) = true then sensors[i]?.bind fun x => (measures O x.1 x.2).2 else none) = some (g, o) ↔
      ∃ t x, sensors[i]? = some (t, x) ∧ (measures O t x).1 = k ∧ (measures O t x).2 = some (g, o) := by
    intro i g o
    by_cases hi : (sensors[i]?.any fun x => takes k x.1) = true
    · rw [if_pos hi]
      obtain ⟨t, x, h1, h2⟩ := (hinc i).mp hi
      rw [h1]
      simp only [Option.bind_some, Option.some.injEq]
      exact ⟨fun e => ⟨t, x, rfl, h2, e⟩, fun ⟨t', x', e1, _, e3⟩ => by cases e1; exact e3⟩
    · rw [if_neg hi]
      constructor
      · intro e; cases e
      · rintro ⟨t, x, e1, e2, _⟩
        exact absurd ((hinc i).mpr ⟨t, x, e1, e2⟩) hi
  obtain ⟨r, h1, h2⟩ := objects_ok criterion
    (fun i => if (sensors[i]?.any fun x => takes k x.1) = true then sensors[i]?.bind fun x => (measures O x.1 x.2).2 else none)
    (fun i => sensors[i]?.any fun x => takes k x.1) sensors.length nIsland (nObj k) (fun i g o hf => by
      obtain ⟨t, x, _, e2, e3⟩ := (hfind i g o).mp hf
      rw [← e2]; exact (hr t x g o e3).2) st.2
  have hlt : ∀ {i : Nat} {y}, sensors[i]? = some y → i < sensors.length := by
    intro i y hy
    by_contra hn
    rw [List.getElem?_eq_none (by omega)] at hy
    cases hy
  have hkeep : ∀ i, (∀ t x g q, sensors[i]? = some (t, x) → (measures O t x).1 = k → (measures O t x).2 ≠ some (g, q)) → r.2 i = st.2 i := by
    intro i hi
    refine h2.other i ?_
    rintro ⟨_, _, g, o, e, _⟩
    obtain ⟨t, x, e1, e2, e3⟩ := (hfind i g o).mp e
    exact hi t x g o e1 e2 e3
  refine ⟨(Function.update st.1 k r.1, r.2), ?_, ⟨fun i t x g q hs hm hq => ?_, fun i hi => ?_, fun k' g p hg hp => ?_⟩⟩
  · unfold sensorPass
    rw [hsame, h1]
    rfl
  · by_cases hmk : (measures O t x).1 = k
    · obtain ⟨p, e1, e2⟩ := h2.found i g q (hlt hs) ((hinc i).mpr ⟨t, x, hs, hmk⟩) ((hfind i g q).mpr ⟨t, x, hs, hmk, hq⟩) (hr t x g q hq).1
      refine ⟨p, e1, ?_⟩
      show (Function.update st.1 k r.1 (measures O t x).1 g)[p]? = _
      rw [hmk, Function.update_self]
      exact e2
    · have hm' : (measures O t x).1 ∈ kinds := by
        rcases List.mem_append.mp hm with e | e
        · exact e
        · exact absurd (List.mem_singleton.mp e) hmk
      obtain ⟨p, e1, e2⟩ := h.coupled i t x g q hs hm' hq
      refine ⟨p, ?_, ?_⟩
      · show r.2 i = _
        rw [hkeep i (fun t' x' _ _ e => by rw [hs] at e; cases e; exact fun e => absurd e hmk)]
        exact e1
      · show (Function.update st.1 k r.1 (measures O t x).1 g)[p]? = _
        rw [Function.update_of_ne hmk]
        exact e2
  · show r.2 i = none
    rw [hkeep i (fun t x g q e1 e2 => hi t x g q e1 (by rw [e2]; simp))]
    exact h.uncoupled i fun t x g q e1 e2 => hi t x g q e1 (by simp [e2])
  · by_cases hkk : k' = k
    · subst hkk
      have hp : p < (Function.update st.1 k' r.1 k' g).length := hp
      rw [Function.update_self] at hp
      obtain ⟨i, ⟨_, e2, e3, o, e4⟩, e5⟩ := h2.unique g p hg hp
      obtain ⟨t, x, e6, e7, e8⟩ := (hfind i g o).mp e4
      refine ⟨i, t, x, e6, e7, e3, fun i' t' x' f1 f2 f3 => ?_⟩
      have f3 : r.2 i' = some (g, p) := f3
      have hinc' := (hinc i').mpr ⟨t', x', f1, f2⟩
      refine e5 i' (hlt f1) hinc' ?_ f3
      cases hq : (measures O t' x').2 with
      | none =>
        have := hkeep i' (fun t'' x'' g'' q'' e _ e' => by rw [f1] at e; cases e; rw [hq] at e'; cases e')
        rw [this, h.uncoupled i' (fun t'' x'' g'' q'' e _ e' => by rw [f1] at e; cases e; rw [hq] at e'; cases e')] at f3
        cases f3
      | some v =>
        obtain ⟨p', f4, _⟩ := h2.found i' v.1 v.2 (hlt f1) hinc' ((hfind i' _ _).mpr ⟨t', x', f1, f2, hq⟩) (hr t' x' _ _ hq).1
        rw [f3] at f4
        simp only [Option.some.injEq, Prod.mk.injEq] at f4
        exact ⟨v.2, (hfind i' g v.2).mpr ⟨t', x', f1, f2, by rw [hq, f4.1]⟩⟩
    · have hp : p < (Function.update st.1 k r.1 k' g).length := hp
      rw [Function.update_of_ne hkk] at hp
      obtain ⟨i, t, x, e1, e2, e3, e4⟩ := h.places k' g p hg hp
      have keep : ∀ (i : Nat) t x, sensors[i]? = some (t, x) → (measures O t x).1 = k' → r.2 i = st.2 i := by
        intro i t x e1 e2
        refine hkeep i fun t' x' _ _ e e' => ?_
        rw [e1] at e
        cases e
        exact absurd (e2.symm.trans e') hkk
      refine ⟨i, t, x, e1, e2, ?_, fun i' t' x' f1 f2 f3 => e4 i' t' x' f1 f2 ?_⟩
      · show r.2 i = _
        rw [keep i t x e1 e2]; exact e3
      · rw [← keep i' t' x' f1 f2]; exact f3

theorem passes_ok (criterion : Nat → Nat → Bool) {O : Objects} {nIsland : Nat} {nObj : Kind → Nat → Nat} (hr : O.InRange nIsland nObj)
    (sensors : List (Terminal × Nat)) (ks : List Kind) : ∀ {kinds : List Kind} {st : SensorState}, SensorsOk O nIsland sensors kinds st →
    (kinds ++ ks).Nodup →
    ∃ st', ks.foldlM (sensorPass criterion O nIsland nObj sensors) st = some st' ∧ SensorsOk O nIsland sensors (kinds ++ ks) st' := by
  induction ks with
  | nil => intro kinds st h _; exact ⟨st, rfl, by simpa using h⟩
  | cons k ks ih =>
    intro kinds st h hn
    have hk : k ∉ kinds := by
      intro hm
      have := (List.nodup_append.mp hn).2.2 k hm k (by simp)
      exact this rfl
    obtain ⟨st', h1, h2⟩ := pass_ok criterion hr sensors h k hk
    obtain ⟨st'', h3, h4⟩ := ih h2 (by simpa using hn)
    refine ⟨st'', ?_, by simpa using h4⟩
    rw [List.foldlM_cons, h1]
    exact h3

theorem start_ok (O : Objects) (nIsland : Nat) (sensors : List (Terminal × Nat)) : SensorsOk O nIsland sensors [] (fun _ _ => [], fun _ => none) :=
  ⟨fun _ _ _ _ _ _ h => by simp at h, fun _ _ => rfl, fun _ _ _ _ h => by simp at h⟩

/-! ## Theorems -/

/-- **C12: power sensors** are coupled exactly if what they measure is, to what they measure. -/
theorem power_sensors_coupled (criterion : Nat → Nat → Bool) {O : Objects} {nIsland : Nat} {nObj : Kind → Nat → Nat} (hr : O.InRange nIsland nObj)
    (sensors : List (Terminal × Nat)) : ∃ st, couplePowerSensors criterion O nIsland nObj sensors = some st ∧
    (∀ (i : Nat) t x, sensors[i]? = some (t, x) →
      match (measures O t x).2 with
      | none => st.2 i = none
      | some (g, q) => ∃ p, st.2 i = some (g, p) ∧ (st.1 (measures O t x).1 g)[p]? = some q) ∧
    ∀ k g p, g < nIsland → p < (st.1 k g).length → ∃ i t x, sensors[i]? = some (t, x) ∧ (measures O t x).1 = k ∧ st.2 i = some (g, p) ∧
      ∀ (i' : Nat) t' x', sensors[i']? = some (t', x') → (measures O t' x').1 = k → st.2 i' = some (g, p) → i' = i := by
  obtain ⟨st, h1, h2⟩ := passes_ok criterion hr sensors [Kind.source, .shunt, .loadGen, .branchFrom, .branchTo, .bus] (start_ok O nIsland sensors) (by decide)
  refine ⟨st, h1, fun i t x hs => ?_, h2.places⟩
  split
  · rename_i hn
    exact h2.uncoupled i fun t' x' g q e _ e' => by rw [hs] at e; cases e; rw [hn] at e'; cases e'
  · rename_i g q hq
    exact h2.coupled i t x g q hs (by cases t <;> simp [measures]) hq

/-- **C12: current sensors**, which measure at branches only. -/
theorem current_sensors_coupled (criterion : Nat → Nat → Bool) {O : Objects} {nIsland : Nat} {nObj : Kind → Nat → Nat} (hr : O.InRange nIsland nObj)
    (sensors : List (Terminal × Nat)) (hb : ∀ x ∈ sensors, x.1 = .branchFrom ∨ x.1 = .branchTo ∨ ∃ m, x.1 = .branch3 m) :
    ∃ st, coupleCurrentSensors criterion O nIsland nObj sensors = some st ∧
    (∀ (i : Nat) t x, sensors[i]? = some (t, x) →
      match (measures O t x).2 with
      | none => st.2 i = none
      | some (g, q) => ∃ p, st.2 i = some (g, p) ∧ (st.1 (measures O t x).1 g)[p]? = some q) ∧
    ∀ k g p, g < nIsland → p < (st.1 k g).length → ∃ i t x, sensors[i]? = some (t, x) ∧ (measures O t x).1 = k ∧ st.2 i = some (g, p) ∧
      ∀ (i' : Nat) t' x', sensors[i']? = some (t', x') → (measures O t' x').1 = k → st.2 i' = some (g, p) → i' = i := by
  obtain ⟨st, h1, h2⟩ := passes_ok criterion hr sensors [Kind.branchFrom, .branchTo] (start_ok O nIsland sensors) (by decide)
  refine ⟨st, h1, fun i t x hs => ?_, h2.places⟩
  split
  · rename_i hn
    exact h2.uncoupled i fun t' x' g q e _ e' => by rw [hs] at e; cases e; rw [hn] at e'; cases e'
  · rename_i g q hq
    refine h2.coupled i t x g q hs ?_ hq
    rcases hb _ (List.mem_of_getElem? hs) with e | e | ⟨m, e⟩ <;> simp only at e <;> subst e <;> simp [measures]

/-- The objects of a grid that sensors can measure, with their numbers per island. -/
structure Measured (G : Grid A) (s : State A) (c : Coupled) (sourceNode shuntNode loadNode : List Nat) (sourceOn : Nat → Bool) (O : Objects)
    (nObj : Kind → Nat → Nat) : Prop where
  node : ∀ x, O.node x = s.node x
  branch : ∀ k, O.branch k = c.branch[k]?.getD none
  branch3 : ∀ k, O.branch3 k = c.branch3[k]?.getD none
  source : ∃ cr dense coup, coupleAppliances cr s sourceNode sourceOn = some (dense, coup) ∧
    (∀ i, i < sourceNode.length → O.source i = coup i) ∧ (∀ i, sourceNode.length ≤ i → O.source i = none) ∧ ∀ g, nObj .source g = (dense g).length
  shunt : ∃ cr dense coup, coupleAppliances cr s shuntNode (fun _ => true) = some (dense, coup) ∧
    (∀ i, i < shuntNode.length → O.shunt i = coup i) ∧ (∀ i, shuntNode.length ≤ i → O.shunt i = none) ∧ ∀ g, nObj .shunt g = (dense g).length
  loadGen : ∃ cr dense coup, coupleAppliances cr s loadNode (fun _ => true) = some (dense, coup) ∧
    (∀ i, i < loadNode.length → O.loadGen i = coup i) ∧ (∀ i, loadNode.length ≤ i → O.loadGen i = none) ∧ ∀ g, nObj .loadGen g = (dense g).length
  bus : ∀ g, nObj .bus g = buses s g
  branches : ∀ g, nObj .branchFrom g = (c.branchBus g).length ∧ nObj .branchTo g = (c.branchBus g).length

theorem appliance_range {G : Grid A} (h : G.Valid) {s : State A} {c : Coupled} (hb : build G = some (s, c)) {cr : Nat → Nat → Bool} {node : List Nat}
    {on : Nat → Bool} {dense : Nat → List Nat} {coup : Nat → Option (Nat × Nat)} (hd : coupleAppliances cr s node on = some (dense, coup))
    {i g q : Nat} (hi : i < node.length) (hc : coup i = some (g, q)) : g < s.islands.length ∧ q < (dense g).length := by
  obtain ⟨dense', coup', h1, _, h3, _⟩ := appliances_coupled h hb cr node on
  rw [hd] at h1
  simp only [Option.some.injEq, Prod.mk.injEq] at h1
  obtain ⟨rfl, rfl⟩ := h1
  obtain ⟨o, e1, e2⟩ := h3 i _ g q (List.getElem?_eq_getElem hi) hc
  refine ⟨((numbering h hb).1 _ _ _ e1).2.1, ?_⟩
  by_contra hn
  rw [List.getElem?_eq_none (by omega)] at e2
  cases e2

/-- **C12: in a grid everything that sensors measure is in range**, so that the two theorems above apply. -/
theorem measured_in_range {G : Grid A} (h : G.Valid) {s : State A} {c : Coupled} (hb : build G = some (s, c)) {sn hn ln : List Nat} {so : Nat → Bool}
    {O : Objects} {nObj : Kind → Nat → Nat} (hm : Measured G s c sn hn ln so O nObj) : O.InRange s.islands.length nObj := by
  obtain ⟨hs, hc⟩ := build_inv h hb
  have hnum := (numbering h hb).1
  have slotIsland : ∀ {g p : Nat}, p < (c.branchBus g).length → g < s.islands.length := by
    intro g p hp
    obtain ⟨x, y, e1, e2, _, e4⟩ := branch_ends h hb (List.getElem_mem hp)
    rcases e4 with e | e
    · obtain ⟨q, hq⟩ := Option.ne_none_iff_exists'.mp e
      exact (hnum x g q (e1 q hq)).2.1
    · obtain ⟨q, hq⟩ := Option.ne_none_iff_exists'.mp e
      exact (hnum y g q (e2 q hq)).2.1
  have br : ∀ k g q, O.branch k = some (g, q) → g < s.islands.length ∧ q < (c.branchBus g).length := by
    intro k g q e
    rw [hm.branch] at e
    have : q < (c.branchBus g).length := by
      refine (hc.slot g q).mp ⟨Sum.inl k, ?_⟩
      show c.branch[k]? = some (some (g, q))
      cases hk : c.branch[k]? with
      | none => rw [hk] at e; cases e
      | some v => rw [hk] at e; exact congrArg some e
    exact ⟨slotIsland this, this⟩
  have br3 : ∀ k m g q, ((O.branch3 k).map fun y => (y.1, y.2 m)) = some (g, q) → g < s.islands.length ∧ q < (c.branchBus g).length := by
    intro k m g q e
    rw [hm.branch3] at e
    have : q < (c.branchBus g).length := by
      refine (hc.slot g q).mp ⟨Sum.inr (k, m), ?_⟩
      cases hk : c.branch3[k]? with
      | none => rw [hk] at e; cases e
      | some v =>
        rw [hk] at e
        cases v with
        | none => cases e
        | some w =>
          simp only [Option.getD_some, Option.map_some, Option.some.injEq, Prod.mk.injEq] at e
          exact ⟨w.2, by rw [hk, ← e.1], e.2⟩
    exact ⟨slotIsland this, this⟩
  have appl : ∀ {f : Nat → Option (Nat × Nat)} {node : List Nat} {on : Nat → Bool} {n : Nat → Nat},
      (∃ cr dense coup, coupleAppliances cr s node on = some (dense, coup) ∧ (∀ i, i < node.length → f i = coup i) ∧
        (∀ i, node.length ≤ i → f i = none) ∧ ∀ g, n g = (dense g).length) →
      ∀ i g q, f i = some (g, q) → g < s.islands.length ∧ q < n g := by
    rintro f node on n ⟨cr, dense, coup, h1, h2, h3, h4⟩ i g q e
    by_cases hi : i < node.length
    · rw [h2 i hi] at e
      rw [h4]
      exact appliance_range h hb h1 hi e
    · rw [h3 i (by omega)] at e; cases e
  intro t x g q e
  cases t with
  | branchFrom => show _ ∧ q < nObj .branchFrom g; rw [(hm.branches g).1]; exact br x g q e
  | branchTo => show _ ∧ q < nObj .branchTo g; rw [(hm.branches g).2]; exact br x g q e
  | source => exact appl hm.source x g q e
  | shunt => exact appl hm.shunt x g q e
  | load => exact appl hm.loadGen x g q e
  | generator => exact appl hm.loadGen x g q e
  | branch3 m => show _ ∧ q < nObj .branchFrom g; rw [(hm.branches g).1]; exact br3 x m g q e
  | node =>
    show _ ∧ q < nObj .bus g
    rw [hm.bus]
    exact (hnum x g q ((hm.node x).symm.trans e)).2

/-! ## Examples -/

/-- Objects of one island: two buses, two branches, one branch with three sides, a source, a load; the second source is not coupled. -/
def exObjects : Objects :=
  ⟨fun x => if x < 2 then some (0, x) else none, fun k => if k < 2 then some (0, k) else none, fun k => if k = 0 then some (0, fun m => 2 + m) else none,
    fun i => if i = 0 then some (0, 0) else none, fun _ => none, fun i => if i = 1 then some (0, 0) else none⟩

example : exObjects.InRange 1 (fun k _ => match k with | .source => 1 | .shunt => 0 | .loadGen => 1 | .branchFrom => 5 | .branchTo => 5 | .bus => 2) := by
  intro t x g q e
  cases t <;> simp only [measures, exObjects] at e ⊢
  case branch3 m =>
    split at e
    · simp only [Option.map_some, Option.some.injEq, Prod.mk.injEq] at e
      have := m.2
      omega
    · cases e
  all_goals
    first
      | (cases e; done)
      | (split at e
         · simp only [Option.some.injEq, Prod.mk.injEq] at e; omega
         · cases e)

/-- Sensors at side 2 of the branch with three sides, at a branch, at the coupled and at the other source, and two at a bus. -/
example : (couplePowerSensors (fun _ _ => true) exObjects 1 (fun k _ => match k with | .source => 1 | .shunt => 0 | .loadGen => 1 | .branchFrom => 5 | .branchTo => 5 | .bus => 2)
    [(.branch3 1, 0), (.branchFrom, 1), (.source, 0), (.source, 1), (.node, 1), (.node, 0)]).map (fun st =>
      ((List.range 6).map st.2, st.1 .branchFrom 0, st.1 .source 0, st.1 .bus 0)) =
    some ([some (0, 1), some (0, 0), some (0, 0), none, some (0, 1), some (0, 0)], [1, 3], [0], [0, 1]) := by decide +kernel

end PGM.Topology
