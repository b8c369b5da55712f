import Verif.YBus.Values
import Mathlib.Algebra.BigOperators.Group.Finset.Basic
import Mathlib.Algebra.Group.Hom.Instances
import Mathlib.Algebra.BigOperators.Group.List.Basic

/-!
# Currents at given voltages (part of C17, and of C14)

Prefix: `P/` = `/repo/power_grid_model_c/power_grid_model/include/power_grid_model/`. Voltages and currents live in a commutative
group `V` and `dot : Y →+ V →+ V` is the product of an admittance and a voltage: complex multiplication, or the product of a
3×3 matrix and a vector (`P/common/three_phase_tensor.hpp`), both additive in each argument. The powers that the same functions
compute (`u * conj(i)`) are in `Verif.PowerFlow.Kirchhoff`.
-/

namespace PGM.YBus

variable {Y V : Type} [AddCommMonoid Y] [AddCommGroup V]

/-- The current in `calculate_injection(u, bus)`, `P/math_solver/y_bus.hpp` lines 482-488: the product of a row of the stored
matrix with the voltages. -/
def busCurrent (S : Structure) (y : YBus Y) (dot : Y →+ V →+ V) (u : Nat → V) (bus : Nat) : V :=
  let a := S.rowIndptr[bus]?.getD 0
  let z := S.rowIndptr[bus + 1]?.getD 0
  (List.range' a (z - a)).foldl (fun acc k => acc + dot (y.admittance[k]?.getD 0) (u (S.colIndices[k]?.getD 0))) 0

/-- The voltage at the side of a branch: zero if that side is disconnected, lines 508-510. -/
def sideVoltage (u : Nat → V) : Option Nat → V
  | some b => u b
  | none => 0

/-- `calculate_branch_flow`, lines 500-525: the currents at both sides of every branch. -/
def branchFlow (T : Topo) (P : Param Y) (dot : Y →+ V →+ V) (u : Nat → V) : List (V × V) :=
  T.branches.zipIdx.map fun b =>
    let uf := sideVoltage u b.1.1
    let ut := sideVoltage u b.1.2
    (dot (P.ff b.2) uf + dot (P.ft b.2) ut, dot (P.tf b.2) uf + dot (P.tt b.2) ut)

/-- `calculate_shunt_flow`, lines 528-546, in injection direction: bus by bus, the result is stored at the index of the shunt. -/
def shuntFlow (T : Topo) (P : Param Y) (dot : Y →+ V →+ V) (u : Nat → V) : List V :=
  (List.range T.nBus).foldl (fun out bus =>
    (shuntsOf T bus).foldl (fun out k => out.set k (-(dot (P.shunt k) (u bus)))) out) (List.replicate T.shuntBus.length 0)

/-! ## Specification -/

/-- The current that flows from a bus into all branches, at given currents of the sides of the branches. -/
def intoBranches (T : Topo) (i : List (V × V)) (bus : Nat) : V :=
  ((T.branches.zip i).map fun b => (if b.1.1 = some bus then b.2.1 else 0) + (if b.1.2 = some bus then b.2.2 else 0)).sum

/-- The current that all shunts at a bus inject. -/
def fromShunts (T : Topo) (i : List V) (bus : Nat) : V :=
  ((T.shuntBus.zip i).map fun s => if s.1 = bus then s.2 else 0).sum

/-! ## Lemmas -/

theorem mem_shuntsOf {T : Topo} {bus k : Nat} : k ∈ shuntsOf T bus ↔ T.shuntBus[k]? = some bus := by
  unfold shuntsOf
  rw [List.mem_filter, List.mem_range]
  constructor
  · rintro ⟨_, h⟩; simpa using h
  · intro h; exact ⟨(List.getElem?_eq_some_iff.mp h).1, by simpa using h⟩

theorem shuntFlow_spec (T : Topo) (hv : T.Valid) (P : Param Y) (dot : Y →+ V →+ V) (u : Nat → V) :
    (shuntFlow T P dot u).length = T.shuntBus.length ∧
    ∀ k b, T.shuntBus[k]? = some b → (shuntFlow T P dot u)[k]? = some (-(dot (P.shunt k) (u b))) := by
  have inner : ∀ (bus : Nat) (ks : List Nat) (out : List V),
      (ks.foldl (fun out k => out.set k (-(dot (P.shunt k) (u bus)))) out).length = out.length ∧
      ∀ k, k < out.length → (ks.foldl (fun out k => out.set k (-(dot (P.shunt k) (u bus)))) out)[k]? =
        if k ∈ ks then some (-(dot (P.shunt k) (u bus))) else out[k]? := by
    intro bus ks
    induction ks with
    | nil => intro out; simp
    | cons a ks ih =>
      intro out
      rw [List.foldl_cons]
      obtain ⟨h1, h2⟩ := ih (out.set a (-(dot (P.shunt a) (u bus))))
      refine ⟨by rw [h1]; simp, fun k hk => ?_⟩
      rw [h2 k (by simpa using hk)]
      simp only [List.mem_cons]
      by_cases hm : k ∈ ks
      · rw [if_pos hm, if_pos (Or.inr hm)]
      · rw [if_neg hm]
        by_cases ha : a = k
        · subst ha; rw [List.getElem?_set_self hk, if_pos (Or.inl rfl)]
        · rw [List.getElem?_set_ne ha, if_neg]
          rintro (h | h)
          · exact ha h.symm
          · exact hm h
  have outer : ∀ (bs : List Nat) (out : List V), out.length = T.shuntBus.length →
      (bs.foldl (fun out bus => (shuntsOf T bus).foldl
        (fun out k => out.set k (-(dot (P.shunt k) (u bus)))) out) out).length = T.shuntBus.length ∧
      ∀ k b, T.shuntBus[k]? = some b → (bs.foldl (fun out bus => (shuntsOf T bus).foldl
        (fun out k => out.set k (-(dot (P.shunt k) (u bus)))) out) out)[k]? =
        if b ∈ bs then some (-(dot (P.shunt k) (u b))) else out[k]? := by
    intro bs
    induction bs with
    | nil => intro out h; exact ⟨h, by simp⟩
    | cons a bs ih =>
      intro out h
      rw [List.foldl_cons]
      obtain ⟨i1, i2⟩ := inner a (shuntsOf T a) out
      obtain ⟨h1, h2⟩ := ih _ (i1.trans h)
      refine ⟨h1, fun k b hkb => ?_⟩
      rw [h2 k b hkb]
      have hk : k < out.length := by rw [h]; exact (List.getElem?_eq_some_iff.mp hkb).1
      by_cases hm : b ∈ bs
      · rw [if_pos hm, if_pos (List.mem_cons_of_mem _ hm)]
      · rw [if_neg hm, i2 k hk]
        by_cases hab : b = a
        · subst hab
          rw [if_pos (mem_shuntsOf.mpr hkb), if_pos (by simp)]
        · rw [if_neg (fun hc => hab (Option.some.inj ((hkb.symm).trans (mem_shuntsOf.mp hc)))), if_neg]
          rw [List.mem_cons, not_or]
          exact ⟨hab, hm⟩
  obtain ⟨h1, h2⟩ := outer (List.range T.nBus) (List.replicate T.shuntBus.length 0) (by simp)
  refine ⟨h1, fun k b hkb => ?_⟩
  unfold shuntFlow
  rw [h2 k b hkb, if_pos]
  exact List.mem_range.mpr (hv.shuntRange b (List.mem_of_getElem? hkb))

theorem sum_swap {A B : Type} (l : List A) (s : Finset B) (f : A → B → V) :
    (∑ c ∈ s, (l.map fun a => f a c).sum) = (l.map fun a => ∑ c ∈ s, f a c).sum := by
  induction l with
  | nil => simp
  | cons a l ih => simp [Finset.sum_add_distrib, ih]

theorem zipIdx_zip {A B : Type} (l : List A) (g : A × Nat → B) (o : Nat) :
    l.zip ((l.zipIdx o).map g) = (l.zipIdx o).map fun x => (x.1, g x) := by
  induction l generalizing o with
  | nil => rfl
  | cons a l ih => simp [List.zipIdx_cons, ih]

/-! ## Properties -/

/-- The pattern of the matrix misses nothing: outside it the nodal admittance matrix is zero. -/
theorem nodal_zero {T : Topo} (P : Param Y) {r c : Nat} (h : ¬ InY T r c) : nodal T P r c = 0 := by
  unfold nodal
  have hne : r ≠ c := fun e => h (Or.inl e)
  rw [List.sum_eq_zero, List.sum_eq_zero, add_zero]
  · intro x hx
    obtain ⟨s, _, rfl⟩ := List.mem_map.mp hx
    rw [if_neg]
    rintro ⟨h1, h2⟩
    exact hne (h1.symm.trans h2)
  · intro x hx
    obtain ⟨⟨⟨f, t⟩, k⟩, hs, rfl⟩ := List.mem_map.mp hx
    have hb : (f, t) ∈ T.branches := List.mem_of_getElem? (List.mem_zipIdx_iff_getElem?.mp hs)
    unfold branchTerm
    simp only
    rw [if_neg, if_neg, if_neg, if_neg]
    · simp
    · rintro ⟨h1, h2⟩; rw [h1] at h2; exact hne (Option.some.inj h2)
    · rintro ⟨h1, h2⟩; exact h (Or.inr ⟨_, hb, Or.inr (by rw [h1, h2])⟩)
    · rintro ⟨h1, h2⟩; exact h (Or.inr ⟨_, hb, Or.inl (by rw [h1, h2])⟩)
    · rintro ⟨h1, h2⟩; rw [h1] at h2; exact hne (Option.some.inj h2)

/-- The sum over a row of a matrix in compressed row storage, when its entries are those of `A` and `A` is zero elsewhere. -/
theorem csr_row {n : Nat} {indptr cols : List Nat} {pat : Nat → Nat → Prop} (I : IsCsr n indptr cols pat) (r : Nat) (hr : r < n)
    (hp : ∀ c, pat r c → c < n) (vals : List Y) (A : Nat → Y) (hA : ∀ c k, EntryAt indptr cols r c k → vals[k]? = some (A c))
    (h0 : ∀ c, ¬ pat r c → A c = 0) (dot : Y →+ V →+ V) (u : Nat → V) :
    (List.range' (indptr[r]?.getD 0) (indptr[r + 1]?.getD 0 - indptr[r]?.getD 0)).foldl
      (fun acc k => acc + dot (vals[k]?.getD 0) (u (cols[k]?.getD 0))) 0 = ∑ c ∈ Finset.range n, dot (A c) (u c) := by
  obtain ⟨a, z, ha, hz, haz⟩ := I.mono r hr
  -- where the columns of the row are
  have hcol : ∀ k, a ≤ k → k < z → ∃ c, EntryAt indptr cols r c k := by
    intro k h1 h2
    have hzl : z ≤ cols.length := by
      -- the last row pointer bounds all others
      have : ∀ d q v, d + q = n → indptr[q]? = some v → v ≤ cols.length := by
        intro d
        induction d with
        | zero =>
          intro q v hq hv'
          rw [Nat.zero_add] at hq
          rw [hq, I.last] at hv'
          injection hv' with hv'; omega
        | succ d ih =>
          intro q v hq hv'
          obtain ⟨a', z', e1, e2, e3⟩ := I.mono q (by omega)
          rw [hv'] at e1
          injection e1 with e1
          have := ih (q + 1) z' (by omega) e2
          omega
      exact this (n - (r + 1)) (r + 1) z (by omega) hz
    have hk : k < cols.length := by omega
    exact ⟨cols[k], a, z, ha, hz, h1, h2, List.getElem?_eq_getElem hk⟩
  set cs := (List.range' a (z - a)).map fun k => cols[k]?.getD 0 with hcols
  have hmem : ∀ c, c ∈ cs ↔ ∃ k, EntryAt indptr cols r c k := by
    intro c
    rw [hcols, List.mem_map]
    constructor
    · rintro ⟨k, hk, rfl⟩
      rw [List.mem_range'_1] at hk
      obtain ⟨c, hc'⟩ := hcol k hk.1 (by omega)
      refine ⟨k, ?_⟩
      have := hc'.choose_spec.choose_spec.2.2.2.2
      rw [this]; exact hc'
    · rintro ⟨k, a', z', e1, e2, e3, e4, e5⟩
      rw [ha] at e1; rw [hz] at e2
      injection e1 with e1; injection e2 with e2
      refine ⟨k, List.mem_range'_1.mpr ⟨by omega, by omega⟩, by rw [e5]; rfl⟩
  have hnodup : cs.Nodup := by
    rw [hcols, List.nodup_iff_pairwise_ne, List.pairwise_map]
    refine List.Pairwise.imp_of_mem ?_ (List.pairwise_lt_range' (s := a) (n := z - a))
    intro k k' hk hk' hlt heq
    rw [List.mem_range'_1] at hk hk'
    obtain ⟨c, h1⟩ := hcol k hk.1 (by omega)
    obtain ⟨c', h2⟩ := hcol k' hk'.1 (by omega)
    have := I.sorted r c k c' k' h1 h2 hlt
    have e1 := h1.choose_spec.choose_spec.2.2.2.2
    have e2 := h2.choose_spec.choose_spec.2.2.2.2
    rw [e1, e2] at heq
    simp at heq; omega
  have h1 : (List.range' (indptr[r]?.getD 0) (indptr[r + 1]?.getD 0 - indptr[r]?.getD 0)).foldl
      (fun acc k => acc + dot (vals[k]?.getD 0) (u (cols[k]?.getD 0))) 0 = (cs.map fun c => dot (A c) (u c)).sum := by
    simp only [ha, hz, Option.getD_some]
    rw [foldl_add, zero_add, hcols, List.map_map]
    congr 1
    apply List.map_congr_left
    intro k hk
    rw [List.mem_range'_1] at hk
    obtain ⟨c, hk'⟩ := hcol k hk.1 (by omega)
    have e1 := hk'.choose_spec.choose_spec.2.2.2.2
    rw [hA c k hk']
    simp only [Function.comp, e1, Option.getD_some]
  rw [h1, ← List.sum_toFinset _ hnodup]
  apply Finset.sum_subset_zero_on_sdiff
  · intro c hc'
    rw [List.mem_toFinset] at hc'
    rw [Finset.mem_range]
    exact hp c ((I.pattern r hr c).mp ((hmem c).mp hc'))
  · intro c hc'
    rw [Finset.mem_sdiff, List.mem_toFinset, hmem, I.pattern r hr] at hc'
    rw [h0 c hc'.2]
    simp
  · intro _ _; rfl

theorem inY_range {T : Topo} (hv : T.Valid) {r : Nat} (hr : r < T.nBus) (c : Nat) (h : InY T r c) : c < T.nBus := by
  rcases h with rfl | ⟨b, hb, h | h⟩
  · exact hr
  · exact (hv.branchRange b hb).2 c (by rw [h])
  · exact (hv.branchRange b hb).1 c (by rw [h])

/-- The current at a bus is the product of its row of the nodal admittance matrix with all voltages. -/
theorem busCurrent_eq {T : Topo} (hv : T.Valid) {S : Structure} (hS : build T = some S) {y : YBus Y} (hc : Coherent S y)
    (dot : Y →+ V →+ V) (u : Nat → V) (r : Nat) (hr : r < T.nBus) :
    busCurrent S y dot u r = ∑ c ∈ Finset.range T.nBus, dot (nodal T y.param r c) (u c) := by
  obtain ⟨S', hS', I⟩ := structure_correct hv
  rw [hS] at hS'
  injection hS' with hS'
  subst hS'
  unfold busCurrent
  exact csr_row I.y r hr (inY_range hv hr) y.admittance (fun c => nodal T y.param r c)
    (fun c k hk => by rw [hc.value k (entry_elements hv hS hk).1, entry_is_nodal hv hS _ hk])
    (fun c hc' => nodal_zero _ hc') dot u

theorem busCurrent_is_flow_of {T : Topo} (hv : T.Valid) {S : Structure} (hS : build T = some S) {y : YBus Y}
    (hc : Coherent S y) (dot : Y →+ V →+ V) (u : Nat → V) (r : Nat) (hr : r < T.nBus) :
    busCurrent S y dot u r =
      intoBranches T (branchFlow T y.param dot u) r - fromShunts T (shuntFlow T y.param dot u) r := by
  rw [busCurrent_eq hv hS hc dot u r hr]
  have hsplit : ∀ c, dot (nodal T y.param r c) (u c) =
      (T.branches.zipIdx.map fun b => dot (branchTerm y.param r c b) (u c)).sum +
      (T.shuntBus.zipIdx.map fun s => dot (if s.1 = r ∧ s.1 = c then y.param.shunt s.2 else 0) (u c)).sum := by
    intro c
    unfold nodal
    have hl : ∀ l : List Y, dot l.sum (u c) = (l.map fun x => dot x (u c)).sum := by
      intro l
      induction l with
      | nil => simp
      | cons a l ih => simp [ih]
    rw [map_add, AddMonoidHom.add_apply, hl, hl, List.map_map, List.map_map]
    rfl
  simp only [hsplit]
  rw [Finset.sum_add_distrib, sum_swap, sum_swap, sub_eq_add_neg]
  have pick : ∀ (b : Option Nat) (x : Y) (hb : ∀ c, b = some c → c < T.nBus),
      ∑ c ∈ Finset.range T.nBus, dot (if b = some c then x else 0) (u c) = dot x (sideVoltage u b) := by
    intro b x hb
    cases b with
    | none => simp [sideVoltage]
    | some b =>
      rw [Finset.sum_eq_single_of_mem b (Finset.mem_range.mpr (hb b rfl))]
      · simp [sideVoltage]
      · intro c _ hne
        rw [if_neg (fun e => hne (Option.some.inj e).symm)]
        simp
  congr 1
  · unfold intoBranches branchFlow
    rw [zipIdx_zip, List.map_map]
    congr 1
    apply List.map_congr_left
    rintro ⟨⟨f, t⟩, k⟩ hb
    have hbr := hv.branchRange (f, t) (List.mem_of_getElem? (List.mem_zipIdx_iff_getElem?.mp hb))
    simp only [Function.comp, branchTerm, map_add, AddMonoidHom.add_apply, Finset.sum_add_distrib]
    have e : ∀ (g h : Option Nat) (x : Y), (∀ c, h = some c → c < T.nBus) →
        ∑ c ∈ Finset.range T.nBus, dot (if g = some r ∧ h = some c then x else 0) (u c) =
          if g = some r then dot x (sideVoltage u h) else 0 := by
      intro g h x hh
      by_cases hg : g = some r
      · simp only [hg, true_and, if_true]
        exact pick h x hh
      · simp [hg]
    rw [e f f _ hbr.1, e f t _ hbr.2, e t f _ hbr.1, e t t _ hbr.2]
    by_cases h1 : f = some r <;> by_cases h2 : t = some r <;> simp [h1, h2, add_assoc]
  · unfold fromShunts
    obtain ⟨hlen, hval⟩ := shuntFlow_spec T hv y.param dot u
    have hsf : shuntFlow T y.param dot u = T.shuntBus.zipIdx.map fun s => -(dot (y.param.shunt s.2) (u s.1)) := by
      apply List.ext_getElem?
      intro k
      by_cases hk : k < T.shuntBus.length
      · have : T.shuntBus[k]? = some T.shuntBus[k] := List.getElem?_eq_getElem hk
        rw [hval k _ this, List.getElem?_map, List.getElem?_zipIdx, this]
        simp
      · rw [List.getElem?_eq_none (by omega), List.getElem?_eq_none (by simp; omega)]
    rw [hsf, zipIdx_zip, List.map_map]
    have hneg : ∀ l : List V, -l.sum = (l.map fun x => -x).sum := by
      intro l
      induction l with
      | nil => simp
      | cons a l ih => simp [← ih, add_comm]
    rw [hneg, List.map_map]
    congr 1
    apply List.map_congr_left
    rintro ⟨s, k⟩ hs
    have hsr := hv.shuntRange s (List.mem_of_getElem? (List.mem_zipIdx_iff_getElem?.mp hs))
    simp only [Function.comp]
    by_cases h : s = r
    · subst h
      rw [if_pos rfl, neg_neg, Finset.sum_eq_single_of_mem s (Finset.mem_range.mpr hsr)]
      · simp
      · intro c _ hne
        rw [if_neg (fun e => hne e.2.symm)]
        simp
    · rw [if_neg h, neg_zero]
      apply Finset.sum_eq_zero
      intro c _
      rw [if_neg (fun e => h e.1)]
      simp

/-- The current at a bus, computed from the matrix, is what flows into its branches minus what its shunts inject. -/
theorem busCurrent_is_flow {T : Topo} (hv : T.Valid) {S : Structure} (hS : build T = some S) (y0 : YBus Y) (P : Param Y)
    (incs : List (Increment Y)) (dot : Y →+ V →+ V) (u : Nat → V) (r : Nat) (hr : r < T.nBus) :
    let y := incs.foldl (updateIncrement S) (updateAdmittance S y0 P)
    busCurrent S y dot u r =
      intoBranches T (branchFlow T y.param dot u) r - fromShunts T (shuntFlow T y.param dot u) r :=
  busCurrent_is_flow_of hv hS (coherent_history S y0 P incs) dot u r hr

end PGM.YBus
