import Verif.Lu.Accept
import Mathlib.Algebra.BigOperators.Field
import Mathlib.LinearAlgebra.Matrix.Notation
import Mathlib.Tactic.FinCases
import Mathlib.Tactic.Linarith

/-!
# C16: blocks that are not close to a singular one are accepted

For blocks of any size: if small residuals imply a small vector, the dense factorisation does not report the block as singular.
-/

namespace PGM.Lu

variable {K : Type} [RCLike K] {n : Nat}

/-- The product of the bottom right corner and a vector. -/
noncomputable def corner (B : Blk K n) (k : Nat) (y : Fin n → K) (i : Fin n) : K := ∑ j : Fin n, if k ≤ j.val then B i j * y j else 0

/-- Small residuals of the corner imply small vectors. -/
def CornerBound (B : Blk K n) (k : Nat) (c : ℝ) : Prop :=
  ∀ (y : Fin n → K) (t : ℝ), (∀ i : Fin n, k ≤ i.val → ‖corner B k y i‖ ≤ t) → ∀ i : Fin n, k ≤ i.val → ‖y i‖ ≤ c * t

theorem swap_ge {k a : Fin n} (ha : k ≤ a) (i : Fin n) : k.val ≤ (Equiv.swap k a i).val ↔ k.val ≤ i.val := by
  by_cases h1 : i = k
  · rw [h1, Equiv.swap_apply_left]
    exact ⟨fun _ => le_refl _, fun _ => ha⟩
  · by_cases h2 : i = a
    · rw [h2, Equiv.swap_apply_right]
      exact ⟨fun _ => ha, fun _ => le_refl _⟩
    · rw [Equiv.swap_apply_of_ne_of_ne h1 h2]

theorem corner_swap (B : Blk K n) {k : Fin n} {a b : Fin n} (hb : k ≤ b) (y : Fin n → K) (i : Fin n) :
    corner (fun i j => B (Equiv.swap k a i) (Equiv.swap k b j)) k.val y i = corner B k.val (fun j => y (Equiv.swap k b j)) (Equiv.swap k a i) := by
  unfold corner
  refine (Equiv.sum_comp (Equiv.swap k b) _).symm.trans (Finset.sum_congr rfl fun j _ => ?_)
  simp only [swap_ge hb, Equiv.swap_apply_self]

theorem bound_swap {B : Blk K n} {k : Fin n} {c : ℝ} (h : CornerBound B k.val c) {a b : Fin n} (ha : k ≤ a) (hb : k ≤ b) :
    CornerBound (fun i j => B (Equiv.swap k a i) (Equiv.swap k b j)) k.val c := by
  intro y t hy i hi
  have := h (fun j => y (Equiv.swap k b j)) t (fun i hi => by
    have := hy (Equiv.swap k a i) ((swap_ge ha i).mpr hi)
    rwa [corner_swap B hb, Equiv.swap_apply_self] at this) (Equiv.swap k b i) ((swap_ge hb i).mpr hi)
  rwa [Equiv.swap_apply_self] at this

theorem eliminate_corner (C : Blk K n) (k : Fin n) {i j : Fin n} (hi : k < i) (hj : k < j) : eliminate C k i j = C i j - C i k / C k k * C k j := by
  unfold eliminate
  simp only
  rw [if_pos ⟨hi, hj⟩, if_neg (fun h => (ne_of_gt hj) h.2), if_pos ⟨hi, trivial⟩, if_neg (fun h => (lt_irrefl k) h.1)]

theorem eliminate_keep (C : Blk K n) (k : Fin n) {i j : Fin n} (h : ¬ k < i) : eliminate C k i j = C i j := by
  unfold eliminate
  simp only
  rw [if_neg (fun h' => h h'.1), if_neg (fun h' => h h'.1)]

theorem corner_succ (C : Blk K n) (k : Fin n) (y : Fin n → K) (i : Fin n) : corner C k.val y i = C i k * y k + corner C (k.val + 1) y i := by
  unfold corner
  rw [← Finset.add_sum_erase _ _ (Finset.mem_univ k), if_pos (le_refl _), ← Finset.add_sum_erase _ (fun j => if k.val + 1 ≤ j.val then C i j * y j else 0) (Finset.mem_univ k),
    if_neg (by omega), zero_add]
  congr 1
  refine Finset.sum_congr rfl fun j hj => ?_
  have : j.val ≠ k.val := fun h => (Finset.mem_erase.mp hj).1 (Fin.ext h)
  have e : k.val ≤ j.val ↔ k.val + 1 ≤ j.val := by omega
  simp only [e]

theorem bound_eliminate {C : Blk K n} {k : Fin n} {c : ℝ} (h : CornerBound C k.val c) (hne : C k k ≠ 0) : CornerBound (eliminate C k) (k.val + 1) c := by
  intro y t hy i hi
  have ht : 0 ≤ t := le_trans (norm_nonneg _) (hy i hi)
  set s := ∑ j : Fin n, if k.val + 1 ≤ j.val then C k j * y j else 0 with hs
  set y' : Fin n → K := Function.update y k (-(s / C k k)) with hy'
  have htail : ∀ i, corner C (k.val + 1) y' i = corner C (k.val + 1) y i := by
    intro i
    unfold corner
    refine Finset.sum_congr rfl fun j _ => ?_
    split_ifs with hj
    · rw [hy', Function.update_of_ne (fun e => by rw [e] at hj; omega)]
    · rfl
  have hrow : ∀ i : Fin n, k.val ≤ i.val → ‖corner C k.val y' i‖ ≤ t := by
    intro i hi
    rw [corner_succ, htail]
    have hk : y' k = -(s / C k k) := by rw [hy', Function.update_self]
    rw [hk]
    by_cases hik : i = k
    · rw [hik]
      have : C k k * -(s / C k k) + corner C (k.val + 1) y k = 0 := by
        have e : corner C (k.val + 1) y k = s := rfl
        rw [e]
        field_simp
        ring
      rw [this, norm_zero]
      exact ht
    · have hlt : k < i := lt_of_le_of_ne hi (fun e => hik e.symm)
      have e : C i k * -(s / C k k) + corner C (k.val + 1) y i = corner (eliminate C k) (k.val + 1) y i := by
        unfold corner
        rw [hs, Finset.sum_div, ← Finset.sum_neg_distrib, Finset.mul_sum, ← Finset.sum_add_distrib]
        refine Finset.sum_congr rfl fun j _ => ?_
        split_ifs with hj
        · rw [eliminate_corner C k hlt hj]
          ring
        · simp
      rw [e]
      exact hy i hlt
  have := h y' t hrow i (by omega)
  rwa [hy', Function.update_of_ne (fun e => by rw [e] at hi; omega)] at this

/-- In a corner with the bound the largest entry is not small. -/
theorem bound_pivot {B : Blk K n} {k : Fin n} {c : ℝ} (hc : 0 ≤ c) (h : CornerBound B k.val c) {m : ℝ} (hm : ∀ i j, k ≤ i → k ≤ j → ‖B i j‖ ≤ m) : 1 ≤ c * m := by
  have := h (Pi.single k 1) m (fun i hi => by
    have e : corner B k.val (Pi.single k 1) i = B i k := by
      unfold corner
      rw [Finset.sum_eq_single_of_mem k (Finset.mem_univ k)]
      · rw [if_pos (le_refl _), Pi.single_eq_same, mul_one]
      · intro j _ hj
        rw [Pi.single_eq_of_ne hj, mul_zero, ite_self]
    rw [e]
    exact hm i k hi (le_refl k)) k (le_refl _)
  rwa [Pi.single_eq_same, norm_one] at this

/-- The state after `k` pivots. -/
structure Sound (m c : ℝ) (k : Nat) (st : Fact K n) : Prop where
  running : st.stopped = false
  bound : CornerBound st.mat k c
  entries : ∀ i j : Fin n, k ≤ i.val → k ≤ j.val → ‖st.mat i j‖ ≤ 2 ^ k * m
  pivots : ∀ i : Fin n, i.val < k → 1 ≤ c * ‖st.mat i i‖
  largest : st.maxPivot ≤ 2 ^ k * m

theorem good_step {m c : ℝ} (hm : 0 ≤ m) (hc : 0 ≤ c) {k : Fin n} {st : Fact K n} (h : Sound m c k.val st) :
    Sound m c (k.val + 1) (pivotStep 0 false st k) ∧ (pivotStep 0 false st k).flag = st.flag := by
  obtain ⟨hb1, hb2, hmax⟩ := biggest_spec st.mat k
  set b := biggest st.mat k with hb
  have hpiv := bound_pivot hc h.bound hmax
  have hne : st.mat b.1 b.2 ≠ 0 := by
    intro h0
    rw [h0, norm_zero, mul_zero] at hpiv
    linarith
  have hset : setEntry st.mat b.1 b.2 (st.mat b.1 b.2) = st.mat := by
    funext i j
    unfold setEntry
    split_ifs with h
    · rw [h.1, h.2]
    · rfl
  set C : Blk K n := fun i j => st.mat (Equiv.swap k b.1 i) (Equiv.swap k b.2 j) with hC
  have hCk : C k k = st.mat b.1 b.2 := by simp [hC]
  have hstep : pivotStep 0 false st k = ⟨eliminate C k, Function.update st.rows k b.1, Function.update st.cols k b.2,
      max st.maxPivot ‖st.mat b.1 b.2‖, st.flag, false⟩ := by
    unfold pivotStep
    simp only [← hb]
    rw [if_neg]
    · unfold perturb
      rw [if_neg (by simp)]
      simp only [hset]
      rfl
    · rintro (h1 | ⟨h1, _⟩)
      · rw [h.running] at h1
        exact absurd h1 (by simp)
      · exact hne (norm_eq_zero.mp (pow_eq_zero_iff (by norm_num) |>.mp h1))
  have hCle : ∀ i j : Fin n, k ≤ i → k ≤ j → ‖C i j‖ ≤ ‖st.mat b.1 b.2‖ := fun i j hi hj =>
    hmax _ _ ((swap_ge hb1 i).mpr hi) ((swap_ge hb2 j).mpr hj)
  have hpb : ‖st.mat b.1 b.2‖ ≤ 2 ^ k.val * m := h.entries _ _ hb1 hb2
  have hpos : 0 < ‖st.mat b.1 b.2‖ := norm_pos_iff.mpr hne
  have hdouble : (2 : ℝ) ^ (k.val + 1) * m = 2 * (2 ^ k.val * m) := by ring
  rw [hstep]
  refine ⟨⟨rfl, ?_, ?_, ?_, ?_⟩, rfl⟩
  · exact bound_eliminate (bound_swap h.bound hb1 hb2) (by show C k k ≠ 0; rw [hCk]; exact hne)
  · intro i j hi hj
    show ‖eliminate C k i j‖ ≤ _
    have hi' : k < i := hi
    have hj' : k < j := hj
    rw [eliminate_corner C k hi' hj', hCk, hdouble]
    have h1 := hCle i j hi'.le hj'.le
    have h2 : ‖C i k / st.mat b.1 b.2 * C k j‖ ≤ ‖st.mat b.1 b.2‖ := by
      rw [norm_mul, norm_div]
      have h3 : ‖C i k‖ / ‖st.mat b.1 b.2‖ ≤ 1 := (div_le_one hpos).mpr (hCle i k hi'.le (le_refl k))
      calc ‖C i k‖ / ‖st.mat b.1 b.2‖ * ‖C k j‖ ≤ 1 * ‖st.mat b.1 b.2‖ :=
            mul_le_mul h3 (hCle k j (le_refl k) hj'.le) (norm_nonneg _) (by norm_num)
        _ = _ := one_mul _
    calc ‖C i j - C i k / st.mat b.1 b.2 * C k j‖ ≤ ‖C i j‖ + ‖C i k / st.mat b.1 b.2 * C k j‖ := norm_sub_le _ _
      _ ≤ _ := by linarith
  · intro i hi
    show 1 ≤ c * ‖eliminate C k i i‖
    rw [eliminate_keep C k (fun h' : k < i => by have : k.val < i.val := h'; omega)]
    by_cases e : i = k
    · rw [e, hCk]
      exact hpiv
    · have hlt : i.val < k.val := by
        have : i.val ≠ k.val := fun h => e (Fin.ext h)
        omega
      have n1 : ∀ a : Fin n, k ≤ a → Equiv.swap k a i = i := fun a ha =>
        Equiv.swap_apply_of_ne_of_ne e (fun h' => by have : k.val ≤ a.val := ha; rw [← h'] at this; omega)
      show 1 ≤ c * ‖st.mat (Equiv.swap k b.1 i) (Equiv.swap k b.2 i)‖
      rw [n1 _ hb1, n1 _ hb2]
      exact h.pivots i hlt
  · show max st.maxPivot ‖st.mat b.1 b.2‖ ≤ _
    rw [hdouble]
    have : 0 ≤ 2 ^ k.val * m := by positivity
    exact max_le (by linarith [h.largest]) (by linarith)

theorem good_loop {m c : ℝ} (hm : 0 ≤ m) (hc : 0 ≤ c) {st : Fact K n} (h : Sound m c 0 st) (k : Nat) (hk : k ≤ n) :
    Sound m c k (((List.finRange n).take k).foldl (pivotStep 0 false) st) := by
  induction k with
  | zero => simpa using h
  | succ k ih =>
    have hlt : k < (List.finRange n).length := by rw [List.length_finRange]; omega
    rw [List.take_succ_eq_append_getElem hlt, List.foldl_append, List.getElem_finRange]
    exact (good_step hm hc (k := ⟨k, by omega⟩) (ih (by omega))).1

/-- **C16, blocks that are not close to a singular one.** If the entries of a block are at most `m`, and a residual of at most `t` in every row implies
components of at most `c * t`, then the block is accepted, provided `c * m` is at most `2 ^ (52 - n)`. -/
theorem factorize_conditioned (A : Blk K n) (flag : Bool) {m c : ℝ} (hm : ∀ i j, ‖A i j‖ ≤ m)
    (hc : ∀ (y : Fin n → K) (t : ℝ), (∀ i, ‖A.mulVec y i‖ ≤ t) → ∀ i, ‖y i‖ ≤ c * t) (h : c * m * 2 ^ n ≤ 2 ^ 52) :
    factorizeBlock 0 false A flag ≠ none := by
  rcases Nat.eq_zero_or_pos n with h0 | hpos
  · subst h0
    unfold factorizeBlock
    simp only
    rw [if_neg]
    · simp
    · rintro ⟨k, _⟩
      exact k.elim0
  have hm0 : 0 ≤ m := le_trans (norm_nonneg _) (hm ⟨0, hpos⟩ ⟨0, hpos⟩)
  have hc0 : 0 ≤ c := by
    have := hc 0 1 (fun i => by rw [Matrix.mulVec_zero]; simp) ⟨0, hpos⟩
    simpa using this
  have hcorner : ∀ y i, corner A 0 y i = A.mulVec y i := fun y i => by
    unfold corner Matrix.mulVec dotProduct
    simp
  have hstart : Sound m c 0 (⟨A, id, id, 0, flag, false⟩ : Fact K n) := by
    refine ⟨rfl, ?_, fun i j _ _ => by simpa using hm i j, fun i hi => absurd hi (by omega), by simpa using hm0⟩
    intro y t hy i _
    exact hc y t (fun i => by rw [← hcorner]; exact hy i (by omega)) i
  have hend := good_loop hm0 hc0 hstart n (le_refl n)
  rw [List.take_of_length_le (by rw [List.length_finRange])] at hend
  unfold factorizeBlock
  simp only
  rw [if_neg]
  · simp
  · rintro ⟨k, hk⟩
    unfold pivotLoop at hk
    have hp := hend.pivots k k.isLt
    have hl := hend.largest
    set st := (List.finRange n).foldl (pivotStep 0 false) (⟨A, id, id, 0, flag, false⟩ : Fact K n)
    have hcpos : 0 < c := by
      rcases hc0.eq_or_lt with e | e
      · rw [← e, zero_mul] at hp
        linarith
      · exact e
    rcases hk with hk | hk
    · split_ifs at hk
      · exact absurd hk (not_lt.mpr (norm_nonneg _))
      · have h1 : machineEps * st.maxPivot ≤ machineEps * (2 ^ n * m) := mul_le_mul_of_nonneg_left hl machineEps_pos.le
        have h2 : c * (machineEps * (2 ^ n * m)) ≤ 1 := by
          have e : c * (machineEps * (2 ^ n * m)) = machineEps * (c * m * 2 ^ n) := by ring
          rw [e]
          calc machineEps * (c * m * 2 ^ n) ≤ machineEps * 2 ^ 52 := mul_le_mul_of_nonneg_left h machineEps_pos.le
            _ = 1 := by unfold machineEps; norm_num
        have h3 : c * ‖st.mat k k‖ < c * (machineEps * (2 ^ n * m)) := mul_lt_mul_of_pos_left (lt_of_lt_of_le hk h1) hcpos
        linarith
    · rw [hk, norm_zero, mul_zero] at hp
      linarith

/-- Beside the theorem: a block of four with a pivot of zero at the first position. -/
example (flag : Bool) : factorizeBlock 0 false (!![0, 1, 0, 0; 1, 0, 0, 0; 0, 0, 2, 1; 0, 0, 1, 2] : Blk ℝ 4) flag ≠ none := by
  refine factorize_conditioned _ flag (m := 2) (c := 1) ?_ ?_ (by norm_num)
  · intro i j
    fin_cases i <;> fin_cases j <;> simp
  · intro y t h
    have h0 := h 0
    have h1 := h 1
    have h2 := h 2
    have h3 := h 3
    simp only [Matrix.mulVec, dotProduct, Fin.sum_univ_four, Matrix.of_apply, Matrix.cons_val, Real.norm_eq_abs, abs_le] at h0 h1 h2 h3
    intro i
    rw [Real.norm_eq_abs, abs_le, one_mul]
    fin_cases i
    · exact ⟨by simp; linarith [h1.1], by simp; linarith [h1.2]⟩
    · exact ⟨by simp; linarith [h0.1], by simp; linarith [h0.2]⟩
    · exact ⟨by simp; linarith [h2.1, h3.2, h2.2, h3.1], by simp; linarith [h2.1, h3.2, h2.2, h3.1]⟩
    · exact ⟨by simp; linarith [h2.1, h3.2, h2.2, h3.1], by simp; linarith [h2.1, h3.2, h2.2, h3.1]⟩

end PGM.Lu
