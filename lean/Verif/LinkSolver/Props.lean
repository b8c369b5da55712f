import Verif.LinkSolver.Backward
import Verif.LinkSolver.Gauss
import Mathlib.Algebra.Field.Rat
import Mathlib.Algebra.Order.Ring.Rat

/-!
# Currents through the links of a supernode (C33)

The claim, that the currents obey Kirchhoff's law at every node, is false of the code: `link_flows_violate_kirchhoff`. It is proved for the link graphs
that are `Unhindered`; for those the currents are also the smallest ones that obey the law.
-/

namespace PGM.LinkSolver

section general

variable {K : Type} [Field K]

theorem sum_list {m : Nat} (l : List Nat) (hl : l.Nodup) (hlt : ∀ j, j ∈ l → j < m) (g : Nat → K) :
    ∑ j ∈ Finset.range m, (if j ∈ l then g j else 0) = ∑ k ∈ Finset.range l.length, g (l.getD k 0) := by
  induction l with
  | nil => simp
  | cons a l ih =>
    rw [List.nodup_cons] at hl
    have : ∀ j, (if j ∈ a :: l then g j else 0) = (if j = a then g j else 0) + (if j ∈ l then g j else 0) := by
      intro j
      by_cases h1 : j = a
      · subst h1; simp [hl.1]
      · simp [h1]
    simp only [this]
    rw [Finset.sum_add_distrib, ih hl.2 (fun j hj => hlt j (by simp [hj])), List.length_cons, Finset.sum_range_succ', Finset.sum_ite_eq',
      if_pos (Finset.mem_range.mpr (hlt a (by simp)))]
    simp only [List.getD_cons_succ, List.getD_cons_zero]
    ring

/-- The currents for given currents of the free links. -/
def currents (piv free : List Nat) (M : Coo) (rhs : Nat → K) (lam : Nat → K) (e : Nat) : K :=
  ext piv rhs e - ∑ c ∈ Finset.range free.length, (((dfs piv free M e c).getD 0 : Int) : K) * lam c

variable {piv free : List Nat} {m : Nat} {M0 M : Coo} {rhs0 rhs : Nat → K}

theorem getD_mem {l : List Nat} {k : Nat} (h : k < l.length) : l[k]? = some (l.getD k 0) ∧ l.getD k 0 ∈ l := by
  have : l[k]? = some l[k] := List.getElem?_eq_getElem h
  rw [List.getD_eq_getElem?_getD, this]
  exact ⟨rfl, List.getElem_mem h⟩

theorem sorted_nodup {l : List Nat} (h : l.Pairwise (· < ·)) : l.Nodup := h.imp (fun h => Nat.ne_of_lt h)

theorem idxOf_pivot (hl : Lists piv free m) {r p : Nat} (hr : piv[r]? = some p) : piv.idxOf p = r := by
  have hrl : r < piv.length := by by_contra hn; rw [List.getElem?_eq_none (by omega)] at hr; cases hr
  rw [List.getElem?_eq_getElem hrl] at hr
  injection hr with hr
  rw [← hr]
  exact (sorted_nodup hl.pivSorted).idxOf_getElem r hrl

theorem dfs_pivot (hl : Lists piv free m) {r p c : Nat} (hr : piv[r]? = some p) (hc : c < free.length) : dfs piv free M p c = M r (free.getD c 0) := by
  obtain ⟨h1, h2⟩ := getD_mem hc
  have hp := List.mem_of_getElem? hr
  unfold dfs
  rw [h1]
  simp only
  have hne : ¬p = free.getD c 0 := fun e => hl.disjoint p hp (by rw [e]; exact h2)
  rw [if_neg hne, if_pos hp, idxOf_pivot hl hr]

theorem dfs_free (hl : Lists piv free m) {a c : Nat} (ha : a < free.length) (hc : c < free.length) :
    dfs piv free M (free.getD a 0) c = if a = c then some (-1) else none := by
  obtain ⟨h1, h2⟩ := getD_mem hc
  obtain ⟨h3, h4⟩ := getD_mem ha
  unfold dfs
  rw [h1]
  simp only
  rw [if_neg (c := free.getD a 0 ∈ piv) (fun e => hl.disjoint _ e h4)]
  have : free.getD a 0 = free.getD c 0 ↔ a = c := by
    constructor
    · intro e
      rw [e] at h3
      have h5 := sorted_lt hl.freeSorted h3 h1
      have h6 := sorted_lt hl.freeSorted h1 h3
      simp only [lt_irrefl, iff_false] at h5 h6
      omega
    · rintro rfl; rfl
  simp only [this]

theorem currents_pivot (hl : Lists piv free m) {lam : Nat → K} {r p : Nat} (hr : piv[r]? = some p) :
    currents piv free M rhs lam p = rhs r - ∑ c ∈ Finset.range free.length, (((M r (free.getD c 0)).getD 0 : Int) : K) * lam c := by
  unfold currents ext
  rw [if_pos (List.mem_of_getElem? hr), idxOf_pivot hl hr]
  congr 1
  refine Finset.sum_congr rfl fun c hc => ?_
  rw [dfs_pivot hl hr (Finset.mem_range.mp hc)]

theorem currents_free (hl : Lists piv free m) {lam : Nat → K} {a : Nat} (ha : a < free.length) : currents piv free M rhs lam (free.getD a 0) = lam a := by
  unfold currents ext
  rw [if_neg (fun e => hl.disjoint _ e (getD_mem ha).2), Finset.sum_congr rfl fun c hc => by rw [dfs_free hl ha (Finset.mem_range.mp hc)]]
  rw [Finset.sum_eq_single a (fun b _ hb => by rw [if_neg (Ne.symm hb)]; simp) (fun h => absurd (Finset.mem_range.mpr ha) h)]
  simp

/-- The equation of a row after the substitution. -/
theorem row_eq (hl : Lists piv free m) (hb : BInv piv m M0 rhs0 (fun _ => True) (M, rhs)) {r p : Nat} (hr : piv[r]? = some p) (x : Nat → K) :
    ∑ j ∈ Finset.range m, (((M r j).getD 0 : Int) : K) * x j =
      x p + ∑ c ∈ Finset.range free.length, (((M r (free.getD c 0)).getD 0 : Int) : K) * x (free.getD c 0) := by
  have hpm := hl.pivLt p (List.mem_of_getElem? hr)
  rw [← sum_list free (sorted_nodup hl.freeSorted) hl.freeLt (fun j => (((M r j).getD 0 : Int) : K) * x j)]
  have : x p = ∑ j ∈ Finset.range m, if j = p then x j else 0 := by
    rw [Finset.sum_ite_eq', if_pos (Finset.mem_range.mpr hpm)]
  rw [this, ← Finset.sum_add_distrib]
  refine Finset.sum_congr rfl fun j hj => ?_
  by_cases hjp : j = p
  · subst hjp
    have hd : M r j = some 1 := hb.diag r j hr
    rw [if_pos rfl, if_neg (hl.disjoint j (List.mem_of_getElem? hr)), hd]; simp
  · rw [if_neg hjp]
    by_cases hjf : j ∈ free
    · rw [if_pos hjf, zero_add]
    · have hjv := (hl.cover j (Finset.mem_range.mp hj)).resolve_right hjf
      have : M r j = none := by
        by_contra hn
        have := hb.done r j hjv trivial hn
        rw [hr] at this
        injection this with this
        exact hjp this.symm
      rw [if_neg hjf, this]; simp

theorem currents_hold (hl : Lists piv free m) (hb : BInv piv m M0 rhs0 (fun _ => True) (M, rhs)) (lam : Nat → K) :
    RowsHold m piv.length M rhs (currents piv free M rhs lam) := by
  intro r hr
  have hrp : piv[r]? = some piv[r] := List.getElem?_eq_getElem hr
  rw [row_eq hl hb hrp, currents_pivot hl hrp]
  have : ∑ c ∈ Finset.range free.length, (((M r (free.getD c 0)).getD 0 : Int) : K) * currents piv free M rhs lam (free.getD c 0) =
      ∑ c ∈ Finset.range free.length, (((M r (free.getD c 0)).getD 0 : Int) : K) * lam c :=
    Finset.sum_congr rfl fun c hc => by rw [currents_free hl (Finset.mem_range.mp hc)]
  rw [this]
  ring

theorem hold_currents (hl : Lists piv free m) (hb : BInv piv m M0 rhs0 (fun _ => True) (M, rhs)) {y : Nat → K} (hy : RowsHold m piv.length M rhs y)
    {e : Nat} (he : e < m) : y e = currents piv free M rhs (fun c => y (free.getD c 0)) e := by
  rcases hl.cover e he with h | h
  · obtain ⟨r, hr⟩ := List.mem_iff_getElem?.mp h
    have hrl : r < piv.length := by by_contra hn; rw [List.getElem?_eq_none (by omega)] at hr; cases hr
    rw [currents_pivot hl hr, ← hy r hrl, row_eq hl hb hr]
    ring
  · obtain ⟨a, ha⟩ := List.mem_iff_getElem?.mp h
    have hal : a < free.length := by by_contra hn; rw [List.getElem?_eq_none (by omega)] at ha; cases ha
    have : e = free.getD a 0 := by
      rw [(getD_mem hal).1] at ha
      injection ha with ha
      exact ha.symm
    rw [this, currents_free hl hal]

theorem balanced_iff {edges : Nat → Nat × Nat} {n m : Nat} {loads x : Nat → K} :
    Balanced edges n m loads x ↔ ∀ u, u < n → imbalance edges m loads x u = 0 := by
  unfold Balanced imbalance
  have key : ∀ u, ∑ j ∈ Finset.range m, x j * ((if (edges j).2 = u then 1 else 0) - (if (edges j).1 = u then 1 else 0)) =
      ∑ j ∈ Finset.range m, (if (edges j).2 = u then x j else 0) - ∑ j ∈ Finset.range m, if (edges j).1 = u then x j else 0 := by
    intro u
    rw [← Finset.sum_sub_distrib]
    refine Finset.sum_congr rfl fun j _ => ?_
    split_ifs <;> simp
  constructor
  · intro h u hu
    rw [key]
    linear_combination h u hu
  · intro h u hu
    have := h u hu
    rw [key] at this
    linear_combination this

/-- When everything has been merged the remaining sums are zero. -/
theorem total_zero {edges : Nat → Nat × Nat} {n m : Nat} (hv : ValidLinks edges n m) {loads : Nat → K} (hz : ZeroTotal edges n m loads) {s : Fwd K}
    {cur : Nat → Nat} (h : FInv edges n m loads m s cur) (x : Nat → K) (v : Nat) : total n cur (imbalance edges m loads x) v = 0 := by
  rw [total_imbalance hv, Finset.sum_eq_zero, add_zero]
  · by_cases hu : ∃ u, u < n ∧ cur u = v
    · obtain ⟨u, hu, rfl⟩ := hu
      rw [← hz u hu]
      unfold total
      refine Finset.sum_congr rfl fun w _ => ?_
      by_cases e : cur w = cur u
      · rw [if_pos e, if_pos ((h.joined _ _).mp e)]
      · rw [if_neg e, if_neg (fun e' => e ((h.joined _ _).mpr e'))]
    · exact Finset.sum_eq_zero fun w hw => if_neg fun e => hu ⟨w, Finset.mem_range.mp hw, e⟩
  · intro j hj
    rw [(h.joined _ _).mpr (joined_edge (Finset.mem_range.mp hj))]; simp

/-- What the solver returns. -/
theorem linkLoads_eq {edges : Nat → Nat × Nat} {n m : Nat} (hv : ValidLinks edges n m) (hg : Unhindered edges m) (loads : Nat → K)
    {ord : List Nat → List Nat} (hord : ∀ l, (ord l).Perm l) :
    ∃ (piv free : List Nat) (M : Coo) (rhs : Nat → K), Lists piv free m ∧
      linkLoads ord edges m loads = some (currents piv free M rhs fun c =>
        gauss free.length (projection m free.length (dfs piv free M) (ext piv rhs)) c free.length) ∧
      (∀ lam, ZeroTotal edges n m loads → Balanced edges n m loads (currents piv free M rhs lam)) ∧
      ∀ y, Balanced edges n m loads y → ∀ e, e < m → y e = currents piv free M rhs (fun c => y (free.getD c 0)) e := by
  obtain ⟨cur, h⟩ := forward_ok hv hg loads hord
  obtain ⟨M, rhs, e, hb⟩ := backward_ok h
  have hl := lists_of_finv h
  refine ⟨_, _, M, rhs, hl, ?_, fun lam hz => ?_, fun y hy e he => ?_⟩
  · unfold linkLoads
    simp only
    rw [e]
    simp only
    split_ifs with hf
    · congr 1
      funext e
      unfold currents
      rw [hf]; simp
    · rfl
  · rw [balanced_iff, h.solves]
    exact ⟨(hb.solves _).mp (currents_hold hl hb lam), total_zero hv hz h _⟩
  · rw [balanced_iff, h.solves] at hy
    exact hold_currents hl hb ((hb.solves y).mpr hy.1) he

/-- **C33, in part: the currents through the links obey Kirchhoff's law at every node**, for every link graph that is `Unhindered` and all injections
that add up to zero. What is missing: other link graphs, for which it is false (`link_flows_violate_kirchhoff`). -/
theorem link_flows_balance_partial {edges : Nat → Nat × Nat} {n m : Nat} (hv : ValidLinks edges n m) (hg : Unhindered edges m) {loads : Nat → K}
    (hz : ZeroTotal edges n m loads) {ord : List Nat → List Nat} (hord : ∀ l, (ord l).Perm l) :
    ∃ x, linkLoads ord edges m loads = some x ∧ Balanced edges n m loads x := by
  obtain ⟨piv, free, M, rhs, _, h2, h3, _⟩ := linkLoads_eq hv hg loads hord
  exact ⟨_, h2, h3 _ hz⟩

/-- A graph without redundant links is unhindered: chains, stars and trees of links are always solved correctly. -/
theorem tree_unhindered {edges : Nat → Nat × Nat} {m : Nat} (h : ∀ j, j < m → ¬Redundant edges j) : Unhindered edges m :=
  fun _ j _ hj _ hr => absurd hr (h j hj)

/-- A graph is unhindered if the second node of every link that is not redundant does not occur in the links before it. -/
theorem fresh_unhindered {edges : Nat → Nat × Nat} {n m : Nat} (hv : ValidLinks edges n m)
    (h : ∀ i, i < m → Redundant edges i ∨ ∀ j, j < i → (edges j).1 ≠ (edges i).2 ∧ (edges j).2 ≠ (edges i).2) : Unhindered edges m := by
  rintro i j hi hj hri _ ⟨h1, h2⟩
  have hfresh := (h i hi).resolve_left hri
  have single : ∀ v, Joined edges i (edges i).2 v → v = (edges i).2 := by
    intro v hv
    induction hv with
    | refl => rfl
    | tail _ hs ih =>
      obtain ⟨k, hk, e | e⟩ := hs
      · exact absurd (by rw [e]; exact ih) (hfresh k hk).1
      · exact absurd (by rw [e]; exact ih) (hfresh k hk).2
  exact (hv j hj).2.2 ((single _ h1).trans (single _ h2).symm)

end general

/-! ## The smallest currents -/

theorem projection_positive {piv free : List Nat} {m : Nat} (hl : Lists piv free m) (M : Coo) (x : Nat → ℂ) :
    Positive free.length 0 (projection m free.length (dfs piv free M) x) := by
  refine ⟨fun a b => ∑ e ∈ Finset.range m, (((dfs piv free M e a).getD 0 : Int) : ℝ) * (((dfs piv free M e b).getD 0 : Int) : ℝ), fun a b _ _ _ hb => ?_,
    fun a b => Finset.sum_congr rfl fun e _ => mul_comm _ _, fun w hw => ?_⟩
  · unfold projection
    rw [if_pos hb]
    push_cast
    rfl
  · have hsq : ∑ a ∈ Finset.Ico 0 free.length, ∑ b ∈ Finset.Ico 0 free.length,
        w a * (∑ e ∈ Finset.range m, (((dfs piv free M e a).getD 0 : Int) : ℝ) * (((dfs piv free M e b).getD 0 : Int) : ℝ)) * w b =
        ∑ e ∈ Finset.range m, (∑ a ∈ Finset.range free.length, (((dfs piv free M e a).getD 0 : Int) : ℝ) * w a) ^ 2 := by
      rw [Nat.Ico_zero_eq_range]
      have : ∀ e, (∑ a ∈ Finset.range free.length, (((dfs piv free M e a).getD 0 : Int) : ℝ) * w a) ^ 2 =
          ∑ a ∈ Finset.range free.length, ∑ b ∈ Finset.range free.length,
            w a * ((((dfs piv free M e a).getD 0 : Int) : ℝ) * (((dfs piv free M e b).getD 0 : Int) : ℝ)) * w b := by
        intro e
        rw [sq, Finset.sum_mul_sum]
        refine Finset.sum_congr rfl fun a _ => Finset.sum_congr rfl fun b _ => ?_
        ring
      simp only [this]
      symm
      rw [Finset.sum_comm]
      refine Finset.sum_congr rfl fun a _ => ?_
      rw [Finset.sum_comm]
      refine Finset.sum_congr rfl fun b _ => ?_
      rw [Finset.mul_sum, Finset.sum_mul]
    rw [hsq]
    obtain ⟨a, _, ha, hne⟩ := hw
    have hf := (getD_mem ha).2
    refine lt_of_lt_of_le ?_ (Finset.single_le_sum (fun e _ => sq_nonneg _) (Finset.mem_range.mpr (hl.freeLt _ hf)))
    have : ∑ c ∈ Finset.range free.length, (((dfs piv free M (free.getD a 0) c).getD 0 : Int) : ℝ) * w c = -w a := by
      rw [Finset.sum_congr rfl fun c hc => by rw [dfs_free hl ha (Finset.mem_range.mp hc)]]
      rw [Finset.sum_eq_single a (fun b _ hb => by rw [if_neg (Ne.symm hb)]; simp) (fun h => absurd (Finset.mem_range.mpr ha) h)]
      simp
    rw [this, neg_sq]
    exact lt_of_le_of_ne (sq_nonneg _) (Ne.symm (pow_ne_zero 2 hne))

/-- **C33, in part: among all currents that obey Kirchhoff's law the ones that are reported are the smallest**: the sum of their squared magnitudes is
minimal. For every link graph that is `Unhindered`. -/
theorem link_flows_minimal_partial {edges : Nat → Nat × Nat} {n m : Nat} (hv : ValidLinks edges n m) (hg : Unhindered edges m) {loads : Nat → ℂ}
    {ord : List Nat → List Nat} (hord : ∀ l, (ord l).Perm l) {x : Nat → ℂ} (hx : linkLoads ord edges m loads = some x) {y : Nat → ℂ}
    (hy : Balanced edges n m loads y) : ∑ j ∈ Finset.range m, Complex.normSq (x j) ≤ ∑ j ∈ Finset.range m, Complex.normSq (y j) := by
  obtain ⟨piv, free, M, rhs, hl, h2, _, h4⟩ := linkLoads_eq hv hg loads hord
  rw [hx] at h2
  injection h2 with h2
  have hS := gauss_ok (projection_positive hl M (ext piv rhs))
  generalize hlam : (fun c => gauss free.length (projection m free.length (dfs piv free M) (ext piv rhs)) c free.length) = lam at h2
  have hlam' : ∀ c, gauss free.length (projection m free.length (dfs piv free M) (ext piv rhs)) c free.length = lam c := fun c => congrFun hlam c
  -- the result is orthogonal to the columns
  have horth : ∀ a, a < free.length → ∑ e ∈ Finset.range m, (((dfs piv free M e a).getD 0 : Int) : ℂ) * x e = 0 := by
    intro a ha
    have := hS a ha
    unfold projection at this
    rw [if_neg (lt_irrefl _)] at this
    rw [h2]
    unfold currents
    simp only [mul_sub, Finset.sum_sub_distrib]
    rw [← this, sub_eq_zero]
    simp only [Finset.mul_sum]
    rw [Finset.sum_comm]
    refine Finset.sum_congr rfl fun b hb => ?_
    rw [if_pos (Finset.mem_range.mp hb)]
    have e := hlam' b
    unfold projection at e
    rw [e]
    push_cast
    rw [Finset.sum_mul]
    refine Finset.sum_congr rfl fun e _ => ?_
    ring
  have hdiff : ∀ e, e < m → y e - x e = ∑ c ∈ Finset.range free.length, (((dfs piv free M e c).getD 0 : Int) : ℂ) * (lam c - y (free.getD c 0)) := by
    intro e he
    rw [h4 y hy e he, h2]
    unfold currents
    simp only [mul_sub, Finset.sum_sub_distrib]
    ring
  have hcross : ∑ e ∈ Finset.range m, x e * (starRingEnd ℂ) (y e - x e) = 0 := by
    rw [Finset.sum_congr rfl fun e he => by rw [hdiff e (Finset.mem_range.mp he), map_sum]]
    simp only [Finset.mul_sum]
    rw [Finset.sum_comm]
    refine Finset.sum_eq_zero fun c hc => ?_
    have := horth c (Finset.mem_range.mp hc)
    have e : ∀ e, x e * (starRingEnd ℂ) ((((dfs piv free M e c).getD 0 : Int) : ℂ) * (lam c - y (free.getD c 0))) =
        (starRingEnd ℂ) (lam c - y (free.getD c 0)) * ((((dfs piv free M e c).getD 0 : Int) : ℂ) * x e) := by
      intro e
      rw [map_mul, map_intCast]; ring
    simp only [e]
    rw [← Finset.mul_sum, this, mul_zero]
  have hsum : ∑ j ∈ Finset.range m, Complex.normSq (y j) = ∑ j ∈ Finset.range m, Complex.normSq (x j) + ∑ j ∈ Finset.range m, Complex.normSq (y j - x j) := by
    have hj : ∀ j, Complex.normSq (y j) = Complex.normSq (x j) + Complex.normSq (y j - x j) + 2 * (x j * (starRingEnd ℂ) (y j - x j)).re := by
      intro j
      rw [← Complex.normSq_add]; congr 1; ring
    simp only [hj]
    rw [Finset.sum_add_distrib, Finset.sum_add_distrib, ← Finset.mul_sum, ← Complex.re_sum, hcross]
    simp
  rw [hsum]
  have : 0 ≤ ∑ j ∈ Finset.range m, Complex.normSq (y j - x j) := Finset.sum_nonneg fun j _ => Complex.normSq_nonneg _
  linarith

/-! ## The claim is false of the code -/

/-- Three links: two parallel links from node 0 to node 1, and one from node 2 to node 0. -/
def exLinks (j : Nat) : Nat × Nat := [(0, 1), (0, 1), (2, 0)].getD j (0, 0)

/-- Node 2 injects 2, nodes 0 and 1 take 1 each. -/
def exLoads (v : Nat) : ℚ := [-1, -1, 2].getD v 0

/-- **C33 is false of the code**: three nodes joined by three links, with injections that add up to zero. The currents that are computed, 4/3, -1/3 and 5/3,
leave 1/3 at node 2. -/
theorem link_flows_violate_kirchhoff : ValidLinks exLinks 3 3 ∧ ∑ v ∈ Finset.range 3, exLoads v = 0 ∧
    (∀ v, v < 3 → Joined exLinks 3 0 v) ∧
    ∃ x, linkLoads id exLinks 3 exLoads = some x ∧ (x 0, x 1, x 2) = (4 / 3, -1 / 3, 5 / 3) ∧ ¬Balanced exLinks 3 3 exLoads x := by
  refine ⟨by unfold ValidLinks; decide, by decide +kernel, ?_, ?_⟩
  · intro v hv
    rcases v with _ | _ | _ | v
    · exact Relation.ReflTransGen.refl
    · exact Relation.ReflTransGen.single ⟨0, by omega, Or.inl rfl⟩
    · exact Relation.ReflTransGen.single ⟨2, by omega, Or.inr rfl⟩
    · omega
  · have : (linkLoads id exLinks 3 exLoads).map (fun x => (x 0, x 1, x 2)) = some (4 / 3, -1 / 3, 5 / 3) := by decide +kernel
    obtain ⟨x, h1, h2⟩ := Option.map_eq_some_iff.mp this
    refine ⟨x, h1, h2, fun h => ?_⟩
    have := h 2 (by omega)
    simp only [Prod.mk.injEq] at h2
    simp only [Finset.sum_range_succ, Finset.sum_range_zero, exLinks, exLoads, List.getD_cons_zero, List.getD_cons_succ] at this
    rw [h2.2.2] at this
    norm_num at this

/-! ## Examples

A ring of three links, and a fourth node that hangs on it by two parallel links. -/

/-- The links of the example. -/
def exRing (j : Nat) : Nat × Nat := [(0, 1), (1, 2), (0, 2), (2, 3), (2, 3)].getD j (0, 0)

/-- The injections of the example. -/
def exRingLoads (v : Nat) : ℚ := [3, -2, 4, -5].getD v 0

theorem exRing_valid : ValidLinks exRing 4 5 := by unfold ValidLinks; decide

theorem exRing_unhindered : Unhindered exRing 5 := by
  refine fresh_unhindered exRing_valid fun i hi => ?_
  rcases i with _ | _ | _ | _ | _ | i
  · right; decide
  · right; decide
  · left
    exact (Relation.ReflTransGen.single (b := 1) ⟨0, by omega, Or.inl rfl⟩).tail ⟨1, by omega, Or.inl rfl⟩
  · right; decide
  · left
    exact Relation.ReflTransGen.single ⟨3, by omega, Or.inl rfl⟩
  · omega

theorem exRing_zero : ZeroTotal exRing 4 5 exRingLoads := by
  have hall : ∀ v, v < 4 → Joined exRing 5 v 0 := by
    intro v hv
    have h2 : Joined exRing 5 2 0 := Relation.ReflTransGen.single ⟨2, by omega, Or.inr rfl⟩
    rcases v with _ | _ | _ | _ | v
    · exact Relation.ReflTransGen.refl
    · exact Relation.ReflTransGen.single ⟨0, by omega, Or.inr rfl⟩
    · exact h2
    · exact Relation.ReflTransGen.head ⟨3, by omega, Or.inr rfl⟩ h2
    · omega
  intro v hv
  have hj : ∀ u, u < 4 → Joined exRing 5 u v := fun u hu => (hall u hu).trans (hall v hv).symm
  rw [Finset.sum_congr rfl fun u hu => if_pos (hj u (Finset.mem_range.mp hu))]
  decide +kernel

example : ∃ x, linkLoads List.reverse exRing 5 exRingLoads = some x ∧ Balanced exRing 4 5 exRingLoads x :=
  link_flows_balance_partial exRing_valid exRing_unhindered exRing_zero List.reverse_perm

example : (linkLoads id exRing 5 exRingLoads).map (fun x => (List.range 5).map x) = some [5 / 3, -1 / 3, 4 / 3, 5 / 2, 5 / 2] := by decide +kernel

end PGM.LinkSolver
