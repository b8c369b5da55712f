import Verif.Reports.RegulatorSolve
import Verif.CalcInput.Props

/-!
# C63 for voltage regulators over a whole power flow calculation

From the input of the user over the preparation of the calculation (C58), the entries of the solver and the output. What the solver decides about the limits of a bus is a parameter.
-/

namespace PGM.Reports

open PGM.Container PGM.Input PGM.Update PGM.Topology PGM.PowerFlow PGM.Output PGM.CalcInput

variable {K : Type}

/-! ## Model -/

/-- What island `g` gives to the solver. The loads and generators of a bus are a range of the vector grouped by bus, `load_gens_per_bus`, `P/common/grouped_index_vector.hpp`. -/
def islandOf {C V : Type} (I : PfInput C V (Int × Bool)) (nBus : Nat → Nat) (viol : Nat → Nat → Int) (g : Nat) : VrIsland where
  regs := (I.regulator[g]?).getD []
  load := I.regulatorLoad g
  loadOn l := (entry I.status g l).getD false
  buses := (List.range (nBus g)).map fun b => (List.range (I.loadBus g).length).filter fun l => (I.loadBus g)[l]? == some b
  violated := viol g

/-! ## Specification -/

/-- All loads and generators of the input, in the order in which they are numbered. -/
def loadsAndGens (D : CompType → List (Elem K)) : List (Elem K) := D .symGen ++ D .asymGen ++ D .symLoad ++ D .asymLoad

/-! ## Lemmas -/

theorem loads_at (D : CompType → List (Elem K)) {t : CompType} (ht : t ∈ [CompType.symGen, .asymGen, .symLoad, .asymLoad]) {k : Nat} {e : Elem K} (hk : (D t)[k]? = some e) :
    (loadsAndGens D)[position D t k]? = some e := by
  have hlt : k < (D t).length := (List.getElem?_eq_some_iff.mp hk).1
  simp only [List.mem_cons, List.not_mem_nil, or_false] at ht
  rcases ht with rfl | rfl | rfl | rfl <;> simp [position, family, List.takeWhile, loadsAndGens] <;> grind

section
variable {P : Type} {n : Nat} {want : Nat → Option (Nat × Nat)} {val : Nat → Option P} {place : Nat → Option (Nat × Nat)} {objs : Nat → List Nat} {v : List (List P)}

theorem placed (h : Delivers n want val place objs v) {i g p : Nat} (hi : i < n) (hp : place i = some (g, p)) :
    ∃ o x, want i = some (g, o) ∧ (objs g)[p]? = some o ∧ val i = some x ∧ entry v g p = some x := by
  cases hw : want i with
  | none => rw [h.absent i hi hw] at hp; cases hp
  | some w =>
    obtain ⟨g', o⟩ := w
    obtain ⟨p', x, h1, h2, h3, h4⟩ := h.there i hi g' o hw
    rw [hp] at h1
    cases h1
    exact ⟨o, x, rfl, h2, h3, h4⟩

theorem place_inj (h : Delivers n want val place objs v) {i j g p : Nat} (hi : i < n) (hj : j < n) (h1 : place i = some (g, p)) (h2 : place j = some (g, p)) : i = j := by
  obtain ⟨o, x, _, _, _, he⟩ := placed h hi h1
  obtain ⟨i', _, _, hu⟩ := h.only g p x he
  rw [hu i hi h1, hu j hj h2]

theorem at_place (h : Delivers n want val place objs v) {g p o : Nat} (hg : g < v.length) (ho : (objs g)[p]? = some o) : ∃ i, i < n ∧ place i = some (g, p) := by
  have hl : v[g]? = some v[g] := List.getElem?_eq_getElem hg
  have hp : p < v[g].length := by rw [h.sizes g _ hl]; exact (List.getElem?_eq_some_iff.mp ho).1
  obtain ⟨i, hi, h1, _⟩ := h.only g p v[g][p] (by simp [entry, hl, hp])
  exact ⟨i, hi, h1⟩

end

theorem buses_flatten (l : List Nat) (nb : Nat) :
    ((List.range nb).map fun b => (List.range l.length).filter fun q => l[q]? == some b).flatten.Nodup := by
  rw [List.nodup_flatten]
  constructor
  · intro x hx
    obtain ⟨b, _, rfl⟩ := List.mem_map.mp hx
    exact List.nodup_range.filter _
  · rw [List.pairwise_map]
    refine List.nodup_range.imp ?_
    intro a b hab
    rw [List.disjoint_left]
    intro q h1 h2
    simp only [List.mem_filter, beq_iff_eq] at h1 h2
    rw [h1.2] at h2
    exact hab (Option.some.inj h2.2)

/-- The voltage regulators reach the solver. -/
theorem reaches {C V : Type} {D : CompType → List (Elem K)} {c : Container (Comp K)} (h : Input.build D = .ok c) (A : Attr) (O : Objects) {I : PfInput C V (Int × Bool)}
    {load : List (Nat × V × Bool)} {regulator : List (Nat × Int × Bool)} {node : Nat → Option (Nat × Nat)} {regPlace : Nat → Option (Nat × Nat)} {nBus : Nat → Nat} {nI : Nat}
    (viol : Nat → Nat → Int) (f : Elem K → Nat) (inj : Elem K → V) (hl : load = (loadsAndGens D).map fun e => (f e, inj e, A.on e.id))
    (hreg : regulator = (D .voltageRegulator).map fun e => ((regulatedIdx c (⟨.voltageRegulator, e⟩ : Comp K)).getD 0, e.object, A.on e.id))
    (hnode : ∀ x g p, node x = some (g, p) → g < nI ∧ p < nBus g)
    (hst : Delivers load.length (fun i => load[i]?.bind fun x => node x.1) (fun i => load[i]?.map fun x => x.2.2) O.loadGen I.loadBus I.status)
    (hrg : Delivers regulator.length (fun i => regulator[i]?.bind fun x => O.loadGen x.1) (fun i => regulator[i]?.map fun x => x.2) regPlace I.regulatorLoad I.regulator)
    (h1 : I.status.length = nI) (h2 : I.regulator.length = nI) : Reaches D A O ((List.range nI).map (islandOf I nBus viol)) := by
  have target : ∀ (i : Nat) (e : Elem K), (D .voltageRegulator)[i]? = some e → ∃ q, regulator[i]? = some (q, e.object, A.on e.id) ∧ q < load.length ∧
      ∃ e', (loadsAndGens D)[q]? = some e' ∧ e'.id = e.object ∧ ∀ t k e'', t ∈ [CompType.symGen, .asymGen, .symLoad, .asymLoad] → (D t)[k]? = some e'' → e''.id = e.object → position D t k = q := by
    intro i e he
    obtain ⟨t', k', e', ht', hk', hid, hs⟩ := volt_target h (List.mem_of_getElem? he)
    have hat := loads_at D ht' hk'
    refine ⟨position D t' k', by rw [hreg, List.getElem?_map, he]; simp [hs], ?_, e', hat, hid, ?_⟩
    · rw [hl, List.length_map]; exact (List.getElem?_eq_some_iff.mp hat).1
    · intro t k e'' ht hk hid'
      have hcl : ∀ t ∈ [CompType.symGen, .asymGen, .symLoad, .asymLoad], regulatedClass t = some (baseOf t) := by
        intro t ht
        simp only [List.mem_cons, List.not_mem_nil, or_false] at ht
        rcases ht with rfl | rfl | rfl | rfl <;> rfl
      have := regulated_ok h hk (hcl t ht) (⟨.voltageRegulator, e⟩ : Comp K) hid'.symm
      rw [hs] at this
      exact (Option.some.inj this).symm
  have hrl : regulator.length = (D .voltageRegulator).length := by rw [hreg, List.length_map]
  have objNodup := ((build_iff_valid D).mp ⟨c, h⟩).voltageRegulators
  -- regulators with the same load or generator are the same
  have same : ∀ (i j g o : Nat), i < regulator.length → j < regulator.length → (regulator[i]?.bind fun x => O.loadGen x.1) = some (g, o) →
      (regulator[j]?.bind fun x => O.loadGen x.1) = some (g, o) → i = j := by
    intro i j g o hi hj h3 h4
    rw [hrl] at hi hj
    obtain ⟨q, q1, q2, e', q3, q4, _⟩ := target i _ (List.getElem?_eq_getElem hi)
    obtain ⟨q', q1', q2', e'', q3', q4', _⟩ := target j _ (List.getElem?_eq_getElem hj)
    rw [q1] at h3
    rw [q1'] at h4
    have : q = q' := place_inj hst q2 q2' h3 h4
    subst this
    rw [q3] at q3'
    cases q3'
    have ho : ((D .voltageRegulator).map (·.object))[i]'(by simpa using hi) = ((D .voltageRegulator).map (·.object))[j]'(by simpa using hj) := by
      simp only [List.getElem_map]
      exact q4.symm.trans q4'
    exact (List.Nodup.getElem_inj_iff objNodup).mp ho
  refine ⟨?_, ?_⟩
  · intro t' k' e' ht' hk' m hm
    have hat := loads_at D ht' hk'
    have hq : position D t' k' < load.length := by rw [hl, List.length_map]; exact (List.getElem?_eq_some_iff.mp hat).1
    have hload : load[position D t' k']? = some (f e', inj e', A.on e'.id) := by rw [hl, List.getElem?_map, hat]; rfl
    obtain ⟨g, p⟩ := m
    obtain ⟨o, x, w1, w2, w3, w4⟩ := placed hst hq hm
    rw [hload] at w1 w3
    obtain ⟨n1, n2⟩ := hnode _ _ _ w1
    refine ⟨islandOf I nBus viol g, by simp [n1], ?_, ⟨o, (List.range (I.loadBus g).length).filter fun l => (I.loadBus g)[l]? == some o, by simp [islandOf, n2], ?_⟩, ?_⟩
    · simp only [Option.map_some, Option.some.injEq] at w3
      simp [islandOf, w4, w3]
    · simp only [List.mem_filter, List.mem_range, beq_iff_eq]
      exact ⟨(List.getElem?_eq_some_iff.mp w2).1, w2⟩
    · intro e he hid
      obtain ⟨i, hi⟩ := List.mem_iff_getElem?.mp he
      obtain ⟨q, q1, q2, _, _, _, q5⟩ := target i e hi
      have hqq := q5 t' k' e' ht' hk' hid.symm
      have hi' : i < regulator.length := by rw [hrl]; exact (List.getElem?_eq_some_iff.mp hi).1
      obtain ⟨r, x', r1, r2, r3, r4⟩ := hrg.there i hi' g p (by rw [q1, ← hqq]; exact hm)
      rw [q1] at r3
      simp only [Option.map_some, Option.some.injEq] at r3
      refine ⟨r, ?_, r2⟩
      rw [r3]
      unfold entry at r4
      simp only [islandOf]
      cases hv : I.regulator[g]? with
      | none => rw [hv] at r4; cases r4
      | some l => rw [hv] at r4; exact r4
  · intro X hX
    obtain ⟨g, hg, rfl⟩ := List.mem_map.mp hX
    rw [List.mem_range] at hg
    have hgr : g < I.regulator.length := by omega
    have hv : I.regulator[g]? = some I.regulator[g] := List.getElem?_eq_getElem hgr
    have hsz := hrg.sizes g _ hv
    have hval : ∀ (r : Nat) x, I.regulator[g][r]? = some x → ∃ i e, (D .voltageRegulator)[i]? = some e ∧ i < regulator.length ∧ regPlace i = some (g, r) ∧ x = (e.object, A.on e.id) := by
      intro r x hx
      obtain ⟨i, hi, hp, _⟩ := hrg.only g r x (by simp [entry, hv, hx])
      obtain ⟨o, x', _, _, w3, w4⟩ := placed hrg hi hp
      have hi' : i < (D .voltageRegulator).length := by omega
      obtain ⟨q, q1, _⟩ := target i _ (List.getElem?_eq_getElem hi')
      rw [q1] at w3
      have : x' = x := by simpa [entry, hv, hx] using w4.symm
      exact ⟨i, _, List.getElem?_eq_getElem hi', hi, hp, by rw [← this]; exact (Option.some.inj w3).symm⟩
    refine ⟨?_, ?_, ?_, buses_flatten _ _, ?_⟩
    · rw [List.nodup_iff_injective_getElem]
      rintro ⟨r, hr⟩ ⟨r', hr'⟩ heq
      simp only [islandOf] at hr hr' heq
      obtain ⟨i, hi, hp⟩ := at_place hrg hgr (List.getElem?_eq_getElem hr)
      obtain ⟨j, hj, hp'⟩ := at_place hrg hgr (List.getElem?_eq_getElem hr')
      obtain ⟨o, _, w1, w2, _⟩ := placed hrg hi hp
      obtain ⟨o', _, w1', w2', _⟩ := placed hrg hj hp'
      rw [List.getElem?_eq_getElem hr] at w2
      rw [List.getElem?_eq_getElem hr'] at w2'
      have : o = o' := (Option.some.inj w2).symm.trans (heq.trans (Option.some.inj w2'))
      subst this
      have hij := same i j g o hi hj w1 w1'
      subst hij
      rw [hp] at hp'
      simp only [Option.some.injEq, Prod.mk.injEq, true_and] at hp'
      exact Fin.ext hp'
    · simp only [islandOf, hv, Option.getD_some]
      exact hsz.symm
    · simp only [islandOf, hv, Option.getD_some]
      rw [List.nodup_iff_injective_getElem]
      rintro ⟨r, hr⟩ ⟨r', hr'⟩ heq
      simp only [List.length_map] at hr hr'
      simp only [List.getElem_map] at heq
      obtain ⟨i, e, he, hi, hp, hx⟩ := hval r _ (List.getElem?_eq_getElem hr)
      obtain ⟨j, e', he', hj, hp', hx'⟩ := hval r' _ (List.getElem?_eq_getElem hr')
      rw [hx, hx'] at heq
      obtain ⟨a1, a2⟩ := List.getElem?_eq_some_iff.mp he
      obtain ⟨b1, b2⟩ := List.getElem?_eq_some_iff.mp he'
      have ho : ((D .voltageRegulator).map (·.object))[i]'(by simpa using a1) = ((D .voltageRegulator).map (·.object))[j]'(by simpa using b1) := by
        simp only [List.getElem_map, a2, b2]
        exact heq
      have hij := (List.Nodup.getElem_inj_iff objNodup).mp ho
      subst hij
      rw [hp] at hp'
      simp only [Option.some.injEq, Prod.mk.injEq, true_and] at hp'
      exact Fin.ext hp'
    · intro p hp
      obtain ⟨r, hr⟩ := List.mem_iff_getElem?.mp hp
      obtain ⟨i, hi, hpl⟩ := at_place hrg hgr hr
      obtain ⟨o, _, w1, w2, _⟩ := placed hrg hi hpl
      have hop : o = p := Option.some.inj (w2.symm.trans hr)
      subst hop
      obtain ⟨q, q1, q2, _⟩ := target i _ (List.getElem?_eq_getElem (by omega : i < (D .voltageRegulator).length))
      rw [q1] at w1
      obtain ⟨b, _, z1, z2, _⟩ := placed hst q2 w1
      obtain ⟨y, hy⟩ : ∃ y, load[q]? = some y := ⟨_, List.getElem?_eq_getElem q2⟩
      rw [hy] at z1
      obtain ⟨_, n2⟩ := hnode _ _ _ z1
      refine List.mem_flatten.mpr ⟨(List.range (I.loadBus g).length).filter fun l => (I.loadBus g)[l]? == some b, ?_, ?_⟩
      · simp only [islandOf, List.mem_map, List.mem_range]
        exact ⟨b, n2, rfl⟩
      · simp only [List.mem_filter, List.mem_range, beq_iff_eq]
        exact ⟨(List.getElem?_eq_some_iff.mp z2).1, z2⟩

/-! ## Theorem -/

/-- **C63, voltage regulators over a whole power flow.** For every accepted input and every valid grid: the preparation of the calculation succeeds, and whatever the solver decides about the limits of the buses
(`viol g b` for bus `b` of island `g`, 0 for none), the record of every voltage regulator says that it is energised exactly if the node of the regulated load or generator is energised and both, the regulator and
the load or generator, are switched on. Then it shows the violation of the bus of that node, otherwise none. `nodeOf` gives the number of the node of a load or generator. -/
theorem voltage_regulator_calculation {B C V : Type} [AddGroup B] [Inhabited C] [Inhabited V] {D : CompType → List (Elem K)} {c : Container (Comp K)} (h : Input.build D = .ok c) (A : Attr)
    (criterion : Nat → Nat → Bool) (S : PfComponents B C V (Int × Bool)) (hv : S.grid.Valid) (hs : S.source.length = S.grid.sources.length) (ht : S.taps = 0 ∨ D .voltageRegulator = [])
    (nodeOf : Elem K → Nat) (inj : Elem K → V) (hl : S.load = (loadsAndGens D).map fun e => (nodeOf e, inj e, A.on e.id))
    (hreg : S.regulator = (D .voltageRegulator).map fun e => ((regulatedIdx c (⟨.voltageRegulator, e⟩ : Comp K)).getD 0, e.object, A.on e.id)) (viol : Nat → Nat → Int) :
    ∃ s cc I place, Topology.build S.grid = some (s, cc) ∧ preparePowerFlow criterion S = .ok I ∧ ∀ O : Objects, O.loadGen = place →
      ∀ (k : Nat) (e : Elem K), (D .voltageRegulator)[k]? = some e →
        ∃ r, (voltRegRecords A c O ((List.range s.islands.length).map fun g => vrEntries (islandOf I (buses s) viol g)))[k]? = some (some r) ∧ r.id = e.id ∧
          ∃ e' ∈ loadsAndGens D, e'.id = e.object ∧ (r.energized = true ↔ Energised S.grid (nodeOf e') ∧ A.on e.id = true ∧ A.on e'.id = true) ∧
            (r.energized = true → ∃ g b, s.node (nodeOf e') = some (g, b) ∧ r.limit = viol g b) ∧ (r.energized = false → r.limit = 0) := by
  obtain ⟨s, cc, I, place, _, regPlace, hb, hp, hen, _, hst, _, hrg, _, _, l1, l2⟩ :=
    power_flow_input criterion S hv hs (ht.imp id fun h0 => by rw [hreg, h0]; rfl)
  refine ⟨s, cc, I, place, hb, hp, ?_⟩
  rintro O rfl k e hk
  have hR := reaches h A O viol nodeOf inj hl hreg (fun x g p hx => ((numbering hv hb).1 x g p hx).2) hst hrg l2 l1
  obtain ⟨r, r1, r2, t', k', e', ht', hk', hid, r3, r4⟩ := voltage_regulator_state h A O _ hR k e hk
  rw [List.map_map] at r1
  have hat := loads_at D ht' hk'
  have hload : S.load[position D t' k']? = some (nodeOf e', inj e', A.on e'.id) := by rw [hl, List.getElem?_map, hat]; rfl
  have hq := (List.getElem?_eq_some_iff.mp hload).1
  refine ⟨r, r1, r2, e', List.mem_of_getElem? hat, hid, ?_⟩
  rw [← hen]
  cases hm : O.loadGen (position D t' k') with
  | none =>
    obtain ⟨a1, a2⟩ := r3 hm
    have : s.node (nodeOf e') = none := by
      cases hn : s.node (nodeOf e') with
      | none => rfl
      | some w =>
        obtain ⟨p, x, z, _⟩ := hst.there _ hq w.1 w.2 (by rw [hload]; exact hn)
        rw [hm] at z
        cases z
    exact ⟨by simp [a1, this], by simp [a1], fun _ => a2⟩
  | some m =>
    obtain ⟨a1, a2, X, b, ls, x1, x2, x3, x4⟩ := r4 m hm
    obtain ⟨g, p⟩ := m
    obtain ⟨o, x, w1, w2, _⟩ := placed hst hq hm
    rw [hload] at w1
    have w1 : s.node (nodeOf e') = some (g, o) := w1
    refine ⟨by rw [a1, w1]; simp, ?_, a2⟩
    intro hE
    refine ⟨g, o, w1, ?_⟩
    rw [x4 hE]
    rw [List.getElem?_map] at x1
    cases hgr : (List.range s.islands.length)[g]? with
    | none => rw [hgr] at x1; cases x1
    | some g' =>
      have : g' = g := by
        obtain ⟨_, z⟩ := List.getElem?_eq_some_iff.mp hgr
        simpa using z.symm
      subst this
      rw [hgr] at x1
      simp only [Option.map_some, Option.some.injEq] at x1
      subst x1
      simp only [islandOf, List.getElem?_map, Option.map_eq_some_iff] at x2
      obtain ⟨b', y1, rfl⟩ := x2
      have hbb : b' = b := by
        obtain ⟨_, z⟩ := List.getElem?_eq_some_iff.mp y1
        simpa using z.symm
      subst hbb
      simp only [List.mem_filter, beq_iff_eq] at x3
      have : o = b' := Option.some.inj (w2.symm.trans x3.2)
      rw [this]
      rfl

end PGM.Reports
