import Verif.LinkSolver.Model
import Verif.LinkSolver.Spec
import Mathlib.Algebra.BigOperators.Ring.Finset
import Mathlib.Algebra.BigOperators.Group.Finset.Piecewise
import Mathlib.Algebra.BigOperators.Group.Finset.Sigma
import Mathlib.Tactic.SplitIfs
import Mathlib.Tactic.Push
import Mathlib.Tactic.Ring
import Mathlib.Tactic.LinearCombination
import Mathlib.Data.List.Nodup

/-!
# Link solver: the forward elimination
-/

namespace PGM.LinkSolver

variable {K : Type} [Field K]

/-! ## Joined nodes -/

theorem Adjacent.symm {edges : Nat → Nat × Nat} {k x y : Nat} (h : Adjacent edges k x y) : Adjacent edges k y x := by
  obtain ⟨j, h1, h2⟩ := h
  exact ⟨j, h1, h2.symm⟩

theorem Joined.symm {edges : Nat → Nat × Nat} {k x y : Nat} (h : Joined edges k x y) : Joined edges k y x := by
  induction h with
  | refl => exact Relation.ReflTransGen.refl
  | tail _ hs ih => exact Relation.ReflTransGen.head hs.symm ih

theorem Joined.mono {edges : Nat → Nat × Nat} {k k' x y : Nat} (hk : k ≤ k') (h : Joined edges k x y) : Joined edges k' x y := by
  induction h with
  | refl => exact Relation.ReflTransGen.refl
  | tail _ hs ih =>
    obtain ⟨j, h1, h2⟩ := hs
    exact ih.tail ⟨j, by omega, h2⟩

theorem joined_edge {edges : Nat → Nat × Nat} {k j : Nat} (h : j < k) : Joined edges k (edges j).1 (edges j).2 :=
  Relation.ReflTransGen.single ⟨j, h, Or.inl rfl⟩

/-- One more link. -/
theorem joined_succ {edges : Nat → Nat × Nat} {k x y : Nat} : Joined edges (k + 1) x y ↔
    Joined edges k x y ∨ (Joined edges k x (edges k).1 ∧ Joined edges k (edges k).2 y) ∨ (Joined edges k x (edges k).2 ∧ Joined edges k (edges k).1 y) := by
  constructor
  · intro h
    induction h with
    | refl => exact Or.inl Relation.ReflTransGen.refl
    | @tail b c _ hs ih =>
      obtain ⟨j, h1, h2⟩ := hs
      by_cases hj : j = k
      · subst hj
        rcases h2 with h2 | h2
        · have e1 : b = (edges j).1 := by rw [h2]
          have e2 : c = (edges j).2 := by rw [h2]
          rw [e1] at ih; rw [e2]
          rcases ih with h | ⟨h, _⟩ | ⟨h, _⟩
          · exact Or.inr (Or.inl ⟨h, Relation.ReflTransGen.refl⟩)
          · exact Or.inr (Or.inl ⟨h, Relation.ReflTransGen.refl⟩)
          · exact Or.inl h
        · have e1 : b = (edges j).2 := by rw [h2]
          have e2 : c = (edges j).1 := by rw [h2]
          rw [e1] at ih; rw [e2]
          rcases ih with h | ⟨h, _⟩ | ⟨h, _⟩
          · exact Or.inr (Or.inr ⟨h, Relation.ReflTransGen.refl⟩)
          · exact Or.inl h
          · exact Or.inr (Or.inr ⟨h, Relation.ReflTransGen.refl⟩)
      · have hs' : Adjacent edges k b c := ⟨j, by omega, h2⟩
        rcases ih with h | ⟨h, h'⟩ | ⟨h, h'⟩
        · exact Or.inl (h.tail hs')
        · exact Or.inr (Or.inl ⟨h, h'.tail hs'⟩)
        · exact Or.inr (Or.inr ⟨h, h'.tail hs'⟩)
  · rintro (h | ⟨h, h'⟩ | ⟨h, h'⟩)
    · exact h.mono (by omega)
    · exact ((h.mono (by omega)).trans (joined_edge (by omega))).trans (h'.mono (by omega))
    · exact ((h.mono (by omega)).trans (joined_edge (by omega)).symm).trans (h'.mono (by omega))

/-! ## The adjacency map -/

theorem mem_insertEdge {a b : Nat} {l : List Nat} : b ∈ insertEdge a l ↔ b = a ∨ b ∈ l := by
  unfold insertEdge
  split_ifs with h
  · constructor
    · exact Or.inr
    · rintro (rfl | h')
      · exact h
      · exact h'
  · simp

theorem insertEdge_nodup {a : Nat} {l : List Nat} (h : l.Nodup) : (insertEdge a l).Nodup := by
  unfold insertEdge
  split_ifs with h'
  · exact h
  · exact List.nodup_cons.mpr ⟨h', h⟩

theorem adjStep_mem (edges : Nat → Nat × Nat) (adj : Nat → List Nat) (i v a : Nat) :
    a ∈ adjStep edges adj i v ↔ a ∈ adj v ∨ (a = i ∧ ((edges i).1 = v ∨ (edges i).2 = v)) := by
  unfold adjStep
  by_cases h2 : (edges i).2 = v
  · subst h2
    rw [Function.update_self, mem_insertEdge]
    by_cases h1 : (edges i).1 = (edges i).2
    · rw [← h1, Function.update_self, mem_insertEdge]
      constructor
      · rintro (h | h | h)
        · exact Or.inr ⟨h, Or.inl rfl⟩
        · exact Or.inr ⟨h, Or.inl rfl⟩
        · exact Or.inl h
      · rintro (h | ⟨h, _⟩)
        · exact Or.inr (Or.inr h)
        · exact Or.inl h
    · rw [Function.update_of_ne (Ne.symm h1)]
      constructor
      · rintro (h | h)
        · exact Or.inr ⟨h, Or.inr rfl⟩
        · exact Or.inl h
      · rintro (h | ⟨h, _⟩)
        · exact Or.inr h
        · exact Or.inl h
  · rw [Function.update_of_ne (Ne.symm h2)]
    by_cases h1 : (edges i).1 = v
    · subst h1
      rw [Function.update_self, mem_insertEdge]
      constructor
      · rintro (h | h)
        · exact Or.inr ⟨h, Or.inl rfl⟩
        · exact Or.inl h
      · rintro (h | ⟨h, _⟩)
        · exact Or.inr h
        · exact Or.inl h
    · rw [Function.update_of_ne (Ne.symm h1)]
      simp [h1, h2]

theorem adjStep_nodup (edges : Nat → Nat × Nat) (adj : Nat → List Nat) (h : ∀ v, (adj v).Nodup) (i v : Nat) : (adjStep edges adj i v).Nodup := by
  unfold adjStep
  simp only [Function.update_apply]
  split_ifs <;> first | exact insertEdge_nodup (insertEdge_nodup (h _)) | exact insertEdge_nodup (h _) | exact h _

theorem buildAdj_spec (edges : Nat → Nat × Nat) (m : Nat) : (∀ v, (buildAdj edges m v).Nodup) ∧
    ∀ v a, a ∈ buildAdj edges m v ↔ a < m ∧ ((edges a).1 = v ∨ (edges a).2 = v) := by
  unfold buildAdj
  induction m with
  | zero => simp
  | succ m ih =>
    rw [List.range_succ, List.foldl_append]
    simp only [List.foldl_cons, List.foldl_nil]
    refine ⟨adjStep_nodup _ _ ih.1 _, fun v a => ?_⟩
    rw [adjStep_mem, ih.2]
    constructor
    · rintro (⟨h1, h2⟩ | ⟨rfl, h⟩)
      · exact ⟨by omega, h2⟩
      · exact ⟨by omega, h⟩
    · rintro ⟨h1, h2⟩
      by_cases ha : a = m
      · subst ha; exact Or.inr ⟨rfl, h2⟩
      · exact Or.inl ⟨by omega, h2⟩

/-! ## Reattaching edges -/

/-- What the reattachment of some edges does. -/
structure Attached (row f t : Nat) (L : List Nat) (s s' : Fwd K) : Prop where
  edges : ∀ a, s'.edges a = if a ∈ L then (if (s.edges a).1 = t then (f, (s.edges a).2) else ((s.edges a).1, f)) else s.edges a
  mat : ∀ r c, s'.mat r c = if r = row ∧ c ∈ L then some (if (s.edges c).1 = t then -1 else 1) else s.mat r c
  hist : ∀ a, s'.hist a = if a ∈ L then s.hist a ++ [row] else s.hist a
  contracted : ∀ a, s'.contracted a = true ↔ s.contracted a = true ∨ (a ∈ L ∧ (s'.edges a).1 = (s'.edges a).2)
  nodup : ∀ v, (s'.adj v).Nodup
  adj : ∀ v a, a ∈ s'.adj v ↔ if v = f then a ∈ s.adj f ∨ a ∈ L else if v = t then a ∈ s.adj t ∧ a ∉ L else a ∈ s.adj v
  loads : s'.loads = s.loads
  rhs : s'.rhs = s.rhs
  piv : s'.piv = s.piv
  free : s'.free = s.free

theorem attach_ok {row f t : Nat} (hft : f ≠ t) (L : List Nat) (hL : L.Nodup) (s : Fwd K) (hs : ∀ v, (s.adj v).Nodup) :
    Attached row f t L s (L.foldl (attachStep row f t) s) := by
  induction L generalizing s with
  | nil => exact ⟨by simp, by simp, by simp, by simp, hs, fun v a => by
      split_ifs with h1 h2
      · subst h1; simp
      · subst h2; simp
      · rfl, rfl, rfl, rfl, rfl⟩
  | cons a L ih =>
    rw [List.nodup_cons] at hL
    rw [List.foldl_cons]
    have hedge : ∀ b, (attachStep row f t s a).edges b =
        if b = a then (if (s.edges a).1 = t then (f, (s.edges a).2) else ((s.edges a).1, f)) else s.edges b := by
      intro b
      show Function.update _ _ _ _ = _
      rw [Function.update_apply]
    have hadjeq : ∀ v, (attachStep row f t s a).adj v = if v = f then insertEdge a (s.adj f) else if v = t then (s.adj t).erase a else s.adj v := by
      intro v
      show Function.update (Function.update s.adj t ((s.adj t).erase a)) f _ v = _
      rw [Function.update_apply, Function.update_of_ne hft, Function.update_apply]
    have hnod : ∀ v, ((attachStep row f t s a).adj v).Nodup := by
      intro v
      rw [hadjeq]
      split_ifs
      · exact insertEdge_nodup (hs f)
      · exact (hs t).erase a
      · exact hs v
    have hhist : ∀ b, (attachStep row f t s a).hist b = if b = a then s.hist a ++ [row] else s.hist b := by
      intro b
      show Function.update _ _ _ _ = _
      rw [Function.update_apply]
    have hmat : ∀ r c, (attachStep row f t s a).mat r c = if r = row ∧ c = a then some (if (s.edges a).1 = t then -1 else 1) else s.mat r c := by
      intro r c
      show Function.update s.mat row (Function.update (s.mat row) a _) r c = _
      rw [Function.update_apply]
      by_cases h1 : r = row
      · subst h1
        rw [if_pos rfl, Function.update_apply]
        simp
      · simp [h1]
    have hcon : ∀ b, (attachStep row f t s a).contracted b = true ↔ s.contracted b = true ∨
        (b = a ∧ ((attachStep row f t s a).edges a).1 = ((attachStep row f t s a).edges a).2) := by
      intro b
      rw [hedge a, if_pos rfl]
      show Function.update s.contracted a _ b = true ↔ _
      rw [Function.update_apply]
      by_cases hb : b = a
      · subst hb; simp
      · simp [hb]
    have h := ih hL.2 (attachStep row f t s a) hnod
    have ha : ∀ b, b ∈ L → b ≠ a := fun b hb e => hL.1 (e ▸ hb)
    refine ⟨fun b => ?_, fun r c => ?_, fun b => ?_, fun b => ?_, h.nodup, fun v b => ?_, h.loads, h.rhs, h.piv, h.free⟩
    · rw [h.edges, hedge]
      by_cases hb : b ∈ L
      · simp [hb, ha b hb]
      · by_cases hba : b = a
        · subst hba; simp [hb]
        · simp [hb, hba]
    · rw [h.mat, hmat, hedge]
      by_cases hc : c ∈ L
      · simp [hc, ha c hc]
      · by_cases hca : c = a
        · subst hca; simp [hc]
        · simp [hc, hca]
    · rw [h.hist, hhist]
      by_cases hb : b ∈ L
      · simp [hb, ha b hb]
      · by_cases hba : b = a
        · subst hba; simp [hb]
        · simp [hb, hba]
    · rw [h.contracted, hcon]
      by_cases hb : b ∈ L
      · simp [hb, ha b hb]
      · by_cases hba : b = a
        · subst hba
          rw [h.edges, if_neg hb]
          simp [hb]
        · simp [hb, hba]
    · rw [h.adj, hadjeq, hadjeq, hadjeq]
      by_cases h1 : v = f
      · subst h1
        simp only [if_pos, mem_insertEdge, List.mem_cons]
        constructor
        · rintro ((h | h) | h)
          · exact Or.inr (Or.inl h)
          · exact Or.inl h
          · exact Or.inr (Or.inr h)
        · rintro (h | h | h)
          · exact Or.inl (Or.inr h)
          · exact Or.inl (Or.inl h)
          · exact Or.inr h
      · simp only [h1, if_false]
        by_cases h2 : v = t
        · subst h2
          simp only [if_true, if_neg (Ne.symm hft), List.mem_cons, not_or, (hs v).mem_erase_iff]
          tauto
        · simp only [h2, if_false]

/-! ## The invariant -/

/-- What flows into a node minus what flows out of it. -/
def imbalance (edges : Nat → Nat × Nat) (m : Nat) (loads x : Nat → K) (u : Nat) : K :=
  loads u + ∑ j ∈ Finset.range m, x j * ((if (edges j).2 = u then 1 else 0) - (if (edges j).1 = u then 1 else 0))

/-- The sum of a quantity over the nodes that have been merged into a node. -/
def total (n : Nat) (cur : Nat → Nat) (b : Nat → K) (v : Nat) : K := ∑ u ∈ Finset.range n, if cur u = v then b u else 0

theorem total_imbalance {edges : Nat → Nat × Nat} {n m : Nat} (hv : ValidLinks edges n m) (loads x : Nat → K) (cur : Nat → Nat) (v : Nat) :
    total n cur (imbalance edges m loads x) v =
      total n cur loads v + ∑ j ∈ Finset.range m, x j * ((if cur (edges j).2 = v then 1 else 0) - (if cur (edges j).1 = v then 1 else 0)) := by
  unfold total imbalance
  have h1 : ∀ u, (if cur u = v then loads u + ∑ j ∈ Finset.range m, x j * ((if (edges j).2 = u then 1 else 0) - (if (edges j).1 = u then 1 else 0)) else 0) =
      (if cur u = v then loads u else 0) + ∑ j ∈ Finset.range m, x j * ((if (edges j).2 = u then (if cur u = v then 1 else 0) else 0) -
        (if (edges j).1 = u then (if cur u = v then 1 else 0) else 0)) := by
    intro u
    by_cases h : cur u = v
    · simp [h]
    · simp [h]
  simp only [h1]
  rw [Finset.sum_add_distrib, Finset.sum_comm]
  congr 1
  refine Finset.sum_congr rfl fun j hj => ?_
  obtain ⟨h2, h3, _⟩ := hv j (Finset.mem_range.mp hj)
  rw [← Finset.mul_sum, Finset.sum_sub_distrib, Finset.sum_ite_eq, Finset.sum_ite_eq, if_pos (Finset.mem_range.mpr h3), if_pos (Finset.mem_range.mpr h2)]

/-- All equations of the matrix hold. -/
def RowsHold (m rows : Nat) (M : Coo) (rhs x : Nat → K) : Prop :=
  ∀ r, r < rows → ∑ j ∈ Finset.range m, (((M r j).getD 0 : Int) : K) * x j = rhs r

/-- What holds after `i` edges; `cur` gives the node into which a node has been merged. -/
structure FInv (edges : Nat → Nat × Nat) (n m : Nat) (loads : Nat → K) (i : Nat) (s : Fwd K) (cur : Nat → Nat) : Prop where
  idem : ∀ v, cur (cur v) = cur v
  joined : ∀ u v, cur u = cur v ↔ Joined edges i u v
  edge : ∀ j, j < m → j ∉ s.piv → s.edges j = (cur (edges j).1, cur (edges j).2)
  nodup : ∀ v, (s.adj v).Nodup
  adj : ∀ v a, a ∈ s.adj v ↔ a < m ∧ a ∉ s.piv ∧ (cur (edges a).1 = v ∨ cur (edges a).2 = v)
  contracted : ∀ j, j < m → j ∉ s.piv → (s.contracted j = true ↔ cur (edges j).1 = cur (edges j).2)
  range : ∀ v, v < n → cur v < n
  load : ∀ v, v < n → cur v = v → s.loads v = -total n cur loads v
  pivot : ∀ j, j ∈ s.piv ↔ j < i ∧ ¬Redundant edges j
  free : ∀ j, j ∈ s.free ↔ j < i ∧ Redundant edges j
  pivSorted : s.piv.Pairwise (· < ·)
  freeSorted : s.free.Pairwise (· < ·)
  solves : ∀ x, (∀ u, u < n → imbalance edges m loads x u = 0) ↔
    RowsHold m s.piv.length s.mat s.rhs x ∧ ∀ v, total n cur (imbalance edges m loads x) v = 0
  right : ∀ r j, s.mat r j ≠ none → ∃ p, s.piv[r]? = some p ∧ p ≤ j ∧ j < m
  diag : ∀ r p, s.piv[r]? = some p → s.mat r p = some 1
  hist : ∀ j r, r ∈ s.hist j ↔ s.mat r j ≠ none
  histSorted : ∀ j, (s.hist j).Pairwise (· < ·)

theorem finv_init {edges : Nat → Nat × Nat} {n m : Nat} (hv : ValidLinks edges n m) (loads : Nat → K) :
    FInv edges n m loads 0 (fwdInit edges m loads) id := by
  obtain ⟨h1, h2⟩ := buildAdj_spec edges m
  have hj : ∀ u v, Joined edges 0 u v ↔ u = v := by
    intro u v
    constructor
    · intro h
      induction h with
      | refl => rfl
      | tail _ hs _ => obtain ⟨j, hj, _⟩ := hs; omega
    · rintro rfl; exact Relation.ReflTransGen.refl
  refine ⟨fun _ => rfl, fun u v => (hj u v).symm, fun j _ _ => rfl, h1, fun v a => ?_, fun j hjm _ => ?_, fun _ h => h, fun v hvn _ => ?_, by simp [fwdInit], by simp [fwdInit],
    by simp [fwdInit], by simp [fwdInit], fun x => ?_, by simp [fwdInit], by simp [fwdInit], by simp [fwdInit], by simp [fwdInit]⟩
  · show a ∈ buildAdj edges m v ↔ _
    rw [h2]; simp [fwdInit]
  · have := (hv j hjm).2.2
    simp [fwdInit, this]
  · show -loads v = _
    unfold total
    simp [hvn]
  · constructor
    · intro h
      refine ⟨fun r hr => by simp [fwdInit] at hr, fun v => ?_⟩
      unfold total
      exact Finset.sum_eq_zero fun u hu => by rw [h u (Finset.mem_range.mp hu)]; simp
    · rintro ⟨_, h⟩ u hu
      have := h u
      unfold total at this
      simpa [hu] using this

theorem finv_free {edges : Nat → Nat × Nat} {n m i : Nat} {loads : Nat → K} {s : Fwd K} {cur : Nat → Nat} (h : FInv edges n m loads i s cur) (hi : i < m)
    (hc : s.contracted i = true) : FInv edges n m loads (i + 1) { s with free := s.free ++ [i] } cur := by
  have hip : i ∉ s.piv := fun hp => by have := ((h.pivot i).mp hp).1; omega
  have hred : Redundant edges i := (h.joined _ _).mp ((h.contracted i hi hip).mp hc)
  refine ⟨h.idem, fun u v => ?_, h.edge, h.nodup, h.adj, h.contracted, h.range, h.load, fun j => ?_, fun j => ?_, h.pivSorted, ?_, h.solves, h.right, h.diag,
    h.hist, h.histSorted⟩
  · rw [h.joined, joined_succ]
    constructor
    · exact Or.inl
    · rintro (e | ⟨e1, e2⟩ | ⟨e1, e2⟩)
      · exact e
      · exact (e1.trans hred).trans e2
      · exact (e1.trans hred.symm).trans e2
  · rw [h.pivot]
    constructor
    · rintro ⟨a, b⟩; exact ⟨by omega, b⟩
    · rintro ⟨a, b⟩
      refine ⟨?_, b⟩
      by_contra hn
      have : j = i := by omega
      subst this
      exact b hred
  · rw [List.mem_append, h.free, List.mem_singleton]
    constructor
    · rintro (⟨a, b⟩ | rfl)
      · exact ⟨by omega, b⟩
      · exact ⟨by omega, hred⟩
    · rintro ⟨a, b⟩
      by_cases hj : j = i
      · exact Or.inr hj
      · exact Or.inl ⟨by omega, b⟩
  · show (s.free ++ [i]).Pairwise (· < ·)
    rw [List.pairwise_append]
    refine ⟨h.freeSorted, by simp, fun a ha b hb => ?_⟩
    rw [List.mem_singleton] at hb
    rw [hb]
    exact ((h.free a).mp ha).1

theorem total_merge {n : Nat} {cur : Nat → Nat} (b : Nat → K) {f t : Nat} (hft : f ≠ t) (v : Nat) :
    total n (fun u => if cur u = t then f else cur u) b v =
      if v = f then total n cur b f + total n cur b t else if v = t then 0 else total n cur b v := by
  unfold total
  split_ifs with h1 h2
  · subst h1
    rw [← Finset.sum_add_distrib]
    refine Finset.sum_congr rfl fun u _ => ?_
    by_cases hu : cur u = t
    · simp [hu, Ne.symm hft]
    · simp [hu]
  · subst h2
    refine Finset.sum_eq_zero fun u _ => ?_
    by_cases hu : cur u = v
    · simp [hu, hft]
    · simp [hu]
  · refine Finset.sum_congr rfl fun u _ => ?_
    by_cases hu : cur u = t
    · simp [hu, Ne.symm h1, Ne.symm h2]
    · simp [hu]

theorem finv_pivot {edges : Nat → Nat × Nat} {n m i : Nat} (hv : ValidLinks edges n m) (hg : Unhindered edges m) {loads : Nat → K} {s : Fwd K}
    {cur : Nat → Nat} (h : FInv edges n m loads i s cur) (hi : i < m) (hc : s.contracted i = false) {L : List Nat}
    (hL : L.Perm ((pivotInit s i).adj (s.edges i).2)) :
    ∃ cur', FInv edges n m loads (i + 1) (L.foldl (attachStep s.piv.length (s.edges i).1 (s.edges i).2) (pivotInit s i)) cur' := by
  have hip : i ∉ s.piv := fun hp => by have := ((h.pivot i).mp hp).1; omega
  have hei := h.edge i hi hip
  have hred : ¬Redundant edges i := fun e => by
    have := (h.contracted i hi hip).mpr ((h.joined _ _).mpr e)
    rw [hc] at this; cases this
  obtain ⟨f, hf⟩ : ∃ f, f = cur (edges i).1 := ⟨_, rfl⟩
  obtain ⟨t, ht⟩ : ∃ t, t = cur (edges i).2 := ⟨_, rfl⟩
  have hft : f ≠ t := fun e => hred ((h.joined _ _).mp (by rw [← hf, ← ht, e]))
  rw [← hf, ← ht] at hei
  have e1 : (s.edges i).1 = f := by rw [hei]
  have e2 : (s.edges i).2 = t := by rw [hei]
  rw [e1, e2]
  rw [e2] at hL
  have hcf : cur f = f := by rw [hf, h.idem]
  have hct : cur t = t := by rw [ht, h.idem]
  have hfn : f < n := by rw [hf]; exact h.range _ (hv i hi).1
  have htn : t < n := by rw [ht]; exact h.range _ (hv i hi).2.1
  -- the state before the reattachments
  have hadj0 : ∀ v a, a ∈ (pivotInit s i).adj v ↔ a ∈ s.adj v ∧ a ≠ i := by
    intro v a
    show a ∈ Function.update (Function.update s.adj (s.edges i).1 ((s.adj (s.edges i).1).erase i)) (s.edges i).2 _ v ↔ _
    rw [e1, e2, Function.update_of_ne (Ne.symm hft), Function.update_apply, Function.update_apply]
    split_ifs with h1 h2
    · subst h1
      rw [(h.nodup v).mem_erase_iff]; exact and_comm
    · subst h2
      rw [(h.nodup v).mem_erase_iff]; exact and_comm
    · refine ⟨fun e => ⟨e, ?_⟩, fun e => e.1⟩
      rintro rfl
      rcases ((h.adj v a).mp e).2.2 with e | e
      · exact h2 (by rw [← e, hf])
      · exact h1 (by rw [← e, ht])
  have hnod0 : ∀ v, ((pivotInit s i).adj v).Nodup := by
    intro v
    show (Function.update (Function.update s.adj (s.edges i).1 ((s.adj (s.edges i).1).erase i)) (s.edges i).2 _ v).Nodup
    rw [e1, e2, Function.update_of_ne (Ne.symm hft), Function.update_apply, Function.update_apply]
    split_ifs with h1 h2
    · exact (h.nodup _).erase _
    · exact (h.nodup _).erase _
    · exact h.nodup _
  have hmemL : ∀ a, a ∈ L ↔ a < m ∧ a ∉ s.piv ∧ (cur (edges a).1 = t ∨ cur (edges a).2 = t) ∧ a ≠ i := by
    intro a
    rw [hL.mem_iff, hadj0, h.adj]
    tauto
  -- no edge at the node that is merged has both ends there
  have hone : ∀ j, j < m → j ∉ s.piv → ¬(cur (edges j).1 = t ∧ cur (edges j).2 = t) := by
    rintro j hj hjp ⟨a, b⟩
    have hjr : Redundant edges j := by
      have hjn : Joined edges i (edges j).1 (edges j).2 := (h.joined _ _).mp (a.trans b.symm)
      by_cases hlt : j < i
      · by_contra hnr
        exact hjp ((h.pivot j).mpr ⟨hlt, hnr⟩)
      · exact hjn.mono (by omega)
    exact hg i j hi hj hred hjr ⟨(h.joined _ _).mp (by rw [a, ht]), (h.joined _ _).mp (by rw [b, ht])⟩
  have hA := attach_ok (row := s.piv.length) hft L (hL.nodup_iff.mpr (hnod0 t)) (pivotInit s i) hnod0
  generalize hs' : L.foldl (attachStep s.piv.length f t) (pivotInit s i) = s' at hA
  have hpiv : s'.piv = s.piv ++ [i] := hA.piv
  have hfree : s'.free = s.free := hA.free
  have hedge : ∀ a, a < m → a ∉ s.piv → (s.edges a).1 = cur (edges a).1 ∧ (s.edges a).2 = cur (edges a).2 := by
    intro a ha hap
    rw [h.edge a ha hap]; exact ⟨rfl, rfl⟩
  have hmat : ∀ r c, s'.mat r c = if r = s.piv.length ∧ c ∈ L then some (if (s.edges c).1 = t then -1 else 1) else
      if r = s.piv.length ∧ c = i then some 1 else s.mat r c := by
    intro r c
    rw [hA.mat]
    congr 1
    show Function.update s.mat s.piv.length (Function.update (s.mat s.piv.length) i (some 1)) r c = _
    rw [Function.update_apply]
    by_cases h1 : r = s.piv.length
    · subst h1
      rw [if_pos rfl, Function.update_apply]
      simp
    · simp [h1]
  have hnone : ∀ c, s.mat s.piv.length c = none := by
    intro c
    by_contra hn
    obtain ⟨p, hp, _⟩ := h.right _ _ hn
    rw [List.getElem?_eq_none (Nat.le_refl _)] at hp
    cases hp
  -- the coefficients of the new row
  have hcoef : ∀ c, c < m → (((s'.mat s.piv.length c).getD 0 : Int) : K) =
      (if cur (edges c).2 = t then 1 else 0) - (if cur (edges c).1 = t then 1 else 0) := by
    intro c hcm
    rw [hmat, hnone]
    by_cases hci : c = i
    · subst hci
      rw [if_neg (fun e => ((hmemL c).mp e.2).2.2.2 rfl), if_pos ⟨rfl, rfl⟩, ← ht, ← hf, if_pos rfl, if_neg hft]
      simp
    · rw [if_neg (c := _ ∧ c = i) (fun e => hci e.2)]
      by_cases hcp : c ∈ s.piv
      · rw [if_neg (fun e => ((hmemL c).mp e.2).2.1 hcp)]
        have hj : cur (edges c).1 = cur (edges c).2 := (h.joined _ _).mpr (joined_edge ((h.pivot c).mp hcp).1)
        rw [hj]; simp
      · obtain ⟨a1, a2⟩ := hedge c hcm hcp
        by_cases hcL : c ∈ L
        · rw [if_pos ⟨rfl, hcL⟩, a1]
          have hn := hone c hcm hcp
          rcases ((hmemL c).mp hcL).2.2.1 with e | e
          · have e' : ¬cur (edges c).2 = t := fun e' => hn ⟨e, e'⟩
            simp [e, e']
          · have e' : ¬cur (edges c).1 = t := fun e' => hn ⟨e', e⟩
            simp [e, e']
        · rw [if_neg (fun e => hcL e.2)]
          have n1 : ¬cur (edges c).1 = t := fun e => hcL ((hmemL c).mpr ⟨hcm, hcp, Or.inl e, hci⟩)
          have n2 : ¬cur (edges c).2 = t := fun e => hcL ((hmemL c).mpr ⟨hcm, hcp, Or.inr e, hci⟩)
          simp [n1, n2]
  have hloads : ∀ v, s'.loads v = if v = f then s.loads f + s.loads t else s.loads v := by
    intro v
    rw [hA.loads]
    show Function.update s.loads (s.edges i).1 _ v = _
    rw [e1, e2, Function.update_apply]
  have hrhs : ∀ r, s'.rhs r = if r = s.piv.length then s.loads t else s.rhs r := by
    intro r
    rw [hA.rhs]
    show Function.update s.rhs s.piv.length (Function.update s.loads (s.edges i).1 _ (s.edges i).2) r = _
    rw [e1, e2, Function.update_apply, Function.update_of_ne (Ne.symm hft)]
  have hhist : ∀ j, s'.hist j = if j ∈ L then s.hist j ++ [s.piv.length] else if j = i then s.hist i ++ [s.piv.length] else s.hist j := by
    intro j
    rw [hA.hist]
    have : (pivotInit s i).hist j = if j = i then s.hist i ++ [s.piv.length] else s.hist j := by
      show Function.update s.hist i _ j = _
      rw [Function.update_apply]
    rw [this]
    by_cases hjL : j ∈ L
    · rw [if_pos hjL, if_pos hjL, if_neg ((hmemL j).mp hjL).2.2.2]
    · rw [if_neg hjL, if_neg hjL]
  have hhlt : ∀ j r, r ∈ s.hist j → r < s.piv.length := by
    intro j r hr
    obtain ⟨p, hp, _⟩ := h.right _ _ ((h.hist j r).mp hr)
    by_contra hn
    rw [List.getElem?_eq_none (by omega)] at hp
    cases hp
  -- a merged edge
  have hmerge : ∀ j, j < m → j ∉ s'.piv →
      s'.edges j = ((if cur (edges j).1 = t then f else cur (edges j).1), (if cur (edges j).2 = t then f else cur (edges j).2)) := by
    intro j hj hjp
    rw [hpiv, List.mem_append, List.mem_singleton, not_or] at hjp
    obtain ⟨a1, a2⟩ := hedge j hj hjp.1
    rw [hA.edges]
    show (if j ∈ L then (if (s.edges j).1 = t then (f, (s.edges j).2) else ((s.edges j).1, f)) else s.edges j) = _
    have hn := hone j hj hjp.1
    by_cases hjL : j ∈ L
    · rw [if_pos hjL, a1, a2]
      rcases ((hmemL j).mp hjL).2.2.1 with e | e
      · have e' : ¬cur (edges j).2 = t := fun e' => hn ⟨e, e'⟩
        simp [e, e']
      · have e' : ¬cur (edges j).1 = t := fun e' => hn ⟨e', e⟩
        simp [e, e']
    · rw [if_neg hjL, h.edge j hj hjp.1]
      have n1 : ¬cur (edges j).1 = t := fun e => hjL ((hmemL j).mpr ⟨hj, hjp.1, Or.inl e, hjp.2⟩)
      have n2 : ¬cur (edges j).2 = t := fun e => hjL ((hmemL j).mpr ⟨hj, hjp.1, Or.inr e, hjp.2⟩)
      rw [if_neg n1, if_neg n2]
  refine ⟨fun v => if cur v = t then f else cur v, fun v => ?_, fun u v => ?_, hmerge, hA.nodup, fun v a => ?_, fun j hj hjp => ?_, fun v hvn => ?_,
    fun v hvn hcv => ?_, fun j => ?_, fun j => ?_, ?_, by rw [hfree]; exact h.freeSorted, fun x => ?_, fun r j hrj => ?_, fun r p hp => ?_, fun j r => ?_,
    fun j => ?_⟩
  · -- idem
    beta_reduce
    by_cases hcv : cur v = t
    · rw [if_pos hcv, hcf, if_neg hft]
    · rw [if_neg hcv, h.idem, if_neg hcv]
  · -- joined
    beta_reduce
    rw [joined_succ, ← h.joined, ← h.joined, ← h.joined, ← h.joined, ← h.joined, ← hf, ← ht]
    by_cases hu : cur u = t <;> by_cases hw : cur v = t
    · simp [hu, hw]
    · rw [if_pos hu, if_neg hw]
      constructor
      · intro e; exact Or.inr (Or.inr ⟨hu, e⟩)
      · rintro (e | ⟨e, e'⟩ | ⟨e, e'⟩)
        · exact absurd (e.symm.trans hu) hw
        · exact absurd (e'.symm) hw
        · exact e'
    · rw [if_neg hu, if_pos hw]
      constructor
      · intro e; exact Or.inr (Or.inl ⟨e, hw.symm⟩)
      · rintro (e | ⟨e, e'⟩ | ⟨e, e'⟩)
        · exact absurd (e.trans hw) hu
        · exact e
        · exact absurd e hu
    · rw [if_neg hu, if_neg hw]
      constructor
      · exact Or.inl
      · rintro (e | ⟨e, e'⟩ | ⟨e, e'⟩)
        · exact e
        · exact absurd e'.symm hw
        · exact absurd e hu
  · -- adj
    rw [hA.adj, hpiv, List.mem_append, List.mem_singleton, hadj0, hadj0, hadj0, h.adj, h.adj, h.adj, hmemL]
    beta_reduce
    by_cases h1 : v = f
    · subst h1
      rw [if_pos rfl]
      have k1 : ∀ w : Nat, (if w = t then v else w) = v ↔ w = v ∨ w = t := by
        intro w
        by_cases hw : w = t
        · simp [hw]
        · simp [hw]
      rw [k1, k1]
      tauto
    · rw [if_neg h1]
      by_cases h2 : v = t
      · subst h2
        rw [if_pos rfl]
        have k1 : ∀ w : Nat, ¬((if w = v then f else w) = v) := by
          intro w
          by_cases hw : w = v
          · rw [if_pos hw]; exact Ne.symm h1
          · rw [if_neg hw]; exact hw
        constructor
        · intro e; tauto
        · rintro ⟨_, _, e | e⟩
          · exact absurd e (k1 _)
          · exact absurd e (k1 _)
      · rw [if_neg h2]
        have k1 : ∀ w : Nat, (if w = t then f else w) = v ↔ w = v := by
          intro w
          by_cases hw : w = t
          · rw [if_pos hw]
            exact ⟨fun e => absurd e.symm h1, fun e => absurd (e.symm.trans hw) h2⟩
          · rw [if_neg hw]
        rw [k1, k1]
        tauto
  · -- contracted
    have hm := hmerge j hj hjp
    rw [hA.contracted, hm]
    beta_reduce
    rw [hpiv, List.mem_append, List.mem_singleton, not_or] at hjp
    show s.contracted j = true ∨ _ ↔ _
    rw [h.contracted j hj hjp.1]
    constructor
    · rintro (e | ⟨_, e⟩)
      · rw [e]
      · exact e
    · intro e
      by_cases hjL : j ∈ L
      · exact Or.inr ⟨hjL, e⟩
      · left
        have n1 : ¬cur (edges j).1 = t := fun e => hjL ((hmemL j).mpr ⟨hj, hjp.1, Or.inl e, hjp.2⟩)
        have n2 : ¬cur (edges j).2 = t := fun e => hjL ((hmemL j).mpr ⟨hj, hjp.1, Or.inr e, hjp.2⟩)
        rw [if_neg n1, if_neg n2] at e
        exact e
  · -- range
    beta_reduce
    split_ifs
    · exact hfn
    · exact h.range v hvn
  · -- loads
    have hvt : v ≠ t := by
      rintro rfl
      rw [if_pos hct] at hcv
      exact hft hcv
    rw [hloads, total_merge _ hft]
    split_ifs with h1
    · rw [h.load f hfn hcf, h.load t htn hct]; ring
    · have : cur v = v := by
        by_cases e : cur v = t
        · rw [if_pos e] at hcv
          exact absurd hcv.symm h1
        · rw [if_neg e] at hcv; exact hcv
      exact h.load v hvn this
  · -- pivots
    rw [hpiv, List.mem_append, List.mem_singleton, h.pivot]
    constructor
    · rintro (⟨a, b⟩ | rfl)
      · exact ⟨by omega, b⟩
      · exact ⟨by omega, hred⟩
    · rintro ⟨a, b⟩
      by_cases hj : j = i
      · exact Or.inr hj
      · exact Or.inl ⟨by omega, b⟩
  · -- free
    rw [hfree, h.free]
    constructor
    · rintro ⟨a, b⟩; exact ⟨by omega, b⟩
    · rintro ⟨a, b⟩
      refine ⟨?_, b⟩
      by_contra hn
      have : j = i := by omega
      subst this
      exact hred b
  · rw [hpiv, List.pairwise_append]
    refine ⟨h.pivSorted, by simp, fun a ha b hb => ?_⟩
    rw [List.mem_singleton] at hb
    rw [hb]
    exact ((h.pivot a).mp ha).1
  · -- the equations
    rw [h.solves]
    have hrow : ∑ j ∈ Finset.range m, (((s'.mat s.piv.length j).getD 0 : Int) : K) * x j = s'.rhs s.piv.length ↔
        total n cur (imbalance edges m loads x) t = 0 := by
      rw [hrhs, if_pos rfl, h.load t htn hct, total_imbalance hv,
        Finset.sum_congr rfl fun j hj => by rw [hcoef j (Finset.mem_range.mp hj), mul_comm]]
      constructor
      · intro e; rw [e]; ring
      · intro e; linear_combination e
    have hold : ∀ r, r < s.piv.length → ((∑ j ∈ Finset.range m, (((s'.mat r j).getD 0 : Int) : K) * x j = s'.rhs r) ↔
        ∑ j ∈ Finset.range m, (((s.mat r j).getD 0 : Int) : K) * x j = s.rhs r) := by
      intro r hr
      rw [hrhs, if_neg (by omega)]
      have : ∀ j, s'.mat r j = s.mat r j := by
        intro j
        rw [hmat, if_neg (by omega), if_neg (by omega)]
      simp only [this]
    have hlen : s'.piv.length = s.piv.length + 1 := by rw [hpiv]; simp
    unfold RowsHold
    rw [hlen]
    constructor
    · rintro ⟨a, b⟩
      refine ⟨fun r hr => ?_, fun v => ?_⟩
      · by_cases e : r = s.piv.length
        · subst e; exact hrow.mpr (b t)
        · exact (hold r (by omega)).mpr (a r (by omega))
      · rw [total_merge _ hft]
        split_ifs
        · rw [b f, b t, add_zero]
        · rfl
        · exact b v
    · rintro ⟨a, b⟩
      have hbt := hrow.mp (a s.piv.length (by omega))
      refine ⟨fun r hr => (hold r hr).mp (a r (by omega)), fun v => ?_⟩
      have := b v
      rw [total_merge _ hft] at this
      split_ifs at this with h1 h2
      · rw [h1]; rw [hbt, add_zero] at this; exact this
      · rw [h2]; exact hbt
      · exact this
  · -- right
    rw [hmat] at hrj
    by_cases h1 : r = s.piv.length ∧ j ∈ L
    · obtain ⟨rfl, hjL⟩ := h1
      obtain ⟨a1, a2, a3, a4⟩ := (hmemL j).mp hjL
      refine ⟨i, by rw [hpiv]; simp, ?_, a1⟩
      by_contra hn
      have hlt : j < i := by omega
      -- an earlier edge that is no pivot edge has both ends merged
      have : Redundant edges j := by
        by_contra hnr
        exact a2 ((h.pivot j).mpr ⟨hlt, hnr⟩)
      have hcc : cur (edges j).1 = cur (edges j).2 := (h.joined _ _).mpr (Joined.mono (by omega) this)
      rcases a3 with e | e
      · exact hone j a1 a2 ⟨e, hcc ▸ e⟩
      · exact hone j a1 a2 ⟨hcc.trans e, e⟩
    · rw [if_neg h1] at hrj
      by_cases h2 : r = s.piv.length ∧ j = i
      · obtain ⟨rfl, rfl⟩ := h2
        exact ⟨j, by rw [hpiv]; simp, le_refl _, hi⟩
      · rw [if_neg h2] at hrj
        obtain ⟨p, hp, b⟩ := h.right r j hrj
        refine ⟨p, ?_, b⟩
        rw [hpiv, List.getElem?_append, if_pos]
        · exact hp
        · by_contra hn
          rw [List.getElem?_eq_none (by omega)] at hp
          cases hp
  · -- diag
    rw [hpiv, List.getElem?_append] at hp
    rw [hmat]
    split_ifs at hp with hlt
    · rw [if_neg (by omega), if_neg (by omega)]
      exact h.diag r p hp
    · have hr : r - s.piv.length = 0 := by
        by_contra hn
        rw [List.getElem?_eq_none (by simp; omega)] at hp
        cases hp
      rw [hr] at hp
      simp only [List.getElem?_cons_zero, Option.some.injEq] at hp
      subst hp
      rw [if_neg (fun e => ((hmemL i).mp e.2).2.2.2 rfl), if_pos ⟨by omega, rfl⟩]
  · -- hist
    rw [hhist, hmat]
    by_cases hjL : j ∈ L
    · rw [if_pos hjL, List.mem_append, List.mem_singleton, h.hist]
      by_cases hr : r = s.piv.length
      · simp [hr, hjL]
      · rw [if_neg (fun e => hr e.1), if_neg (fun e => hr e.1)]
        simp [hr]
    · rw [if_neg hjL, if_neg (c := r = s.piv.length ∧ j ∈ L) (fun e => hjL e.2)]
      by_cases hji : j = i
      · subst hji
        rw [if_pos rfl, List.mem_append, List.mem_singleton, h.hist]
        by_cases hr : r = s.piv.length
        · simp [hr]
        · rw [if_neg (fun e => hr e.1)]
          simp [hr]
      · rw [if_neg hji, if_neg (fun e => hji e.2), h.hist]
  · rw [hhist]
    have : ∀ j, (s.hist j ++ [s.piv.length]).Pairwise (· < ·) := by
      intro j
      rw [List.pairwise_append]
      refine ⟨h.histSorted j, by simp, fun a ha b hb => ?_⟩
      rw [List.mem_singleton] at hb
      rw [hb]
      exact hhlt j a ha
    split_ifs
    · exact this j
    · exact this i
    · exact h.histSorted j

theorem forward_ok {edges : Nat → Nat × Nat} {n m : Nat} (hv : ValidLinks edges n m) (hg : Unhindered edges m) (loads : Nat → K)
    {ord : List Nat → List Nat} (hord : ∀ l, (ord l).Perm l) : ∃ cur, FInv edges n m loads m (forward ord edges m loads) cur := by
  have main : ∀ i, i ≤ m → ∃ cur, FInv edges n m loads i ((List.range i).foldl (edgeStep ord) (fwdInit edges m loads)) cur := by
    intro i
    induction i with
    | zero => exact fun _ => ⟨id, finv_init hv loads⟩
    | succ i ih =>
      intro hi
      obtain ⟨cur, h⟩ := ih (by omega)
      rw [List.range_succ, List.foldl_append]
      simp only [List.foldl_cons, List.foldl_nil]
      generalize (List.range i).foldl (edgeStep ord) (fwdInit edges m loads) = s at h
      unfold edgeStep
      by_cases hc : s.contracted i = true
      · rw [if_pos hc]
        exact ⟨cur, finv_free h (by omega) hc⟩
      · rw [if_neg hc]
        exact finv_pivot hv hg h (by omega) (by simpa using hc) (hord _)
  exact main m (le_refl m)

end PGM.LinkSolver
