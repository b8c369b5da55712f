import Verif.Lu.DenseLemmas

/-!
# The factorisation of a pivot block is right

`L U = P A Q + E`, where `E` is diagonal, bounded by the perturbation threshold, and zero when nothing was perturbed.
-/

namespace PGM.Lu

variable {K : Type} [RCLike K] {n : Nat}

/-- The permutation made of the first `k` transpositions. -/
def swaps (t : Fin n → Fin n) (k : Nat) : Equiv.Perm (Fin n) := (((List.finRange n).take k).map fun m => Equiv.swap m (t m)).prod

theorem swaps_succ (t : Fin n → Fin n) (k r : Fin n) : swaps (Function.update t k r) (k + 1) = swaps t k * Equiv.swap k r := by
  unfold swaps
  rw [finRange_take_succ, List.map_append, List.prod_append]
  congr 2
  · apply List.map_congr_left
    intro m hm
    rw [Function.update_of_ne]
    rintro rfl
    rw [List.mem_take_iff_getElem] at hm
    obtain ⟨i, hi, e⟩ := hm
    rw [List.getElem_finRange] at e
    have h2 := congrArg Fin.val e
    simp only [Fin.val_cast] at h2
    omega
  · simp

/-- What the first `k` pivots leave, at position `i`, `j`. -/
def rest (D : Blk K n) (k : Nat) (i j : Fin n) : K :=
  (∑ m : Fin n, if (m : Nat) < k ∧ m < i ∧ m < j then D i m * D m j else 0) + if j < i ∧ (j : Nat) < k then D i j * D j j else D i j

/-- The state after `k` pivots. -/
structure Inv (thr : ℝ) (A : Blk K n) (flag : Bool) (k : Nat) (st : Fact K n) : Prop where
  stopped : st.stopped = true → ∃ m, st.mat m m = 0
  flagged : st.flag = false → flag = false
  small : st.stopped = false → ∀ i j : Fin n, j < i → (j : Nat) < k → ‖st.mat i j‖ ≤ 1
  factor : st.stopped = false → (∀ m : Fin n, (m : Nat) < k → st.mat m m ≠ 0) → ∃ e : Fin n → K, (∀ i, ‖e i‖ ≤ thr) ∧
    (∀ i : Fin n, k ≤ (i : Nat) → e i = 0) ∧ (st.flag = false → e = 0) ∧
    ∀ i j, A (swaps st.rows k i) (swaps st.cols k j) + (if i = j then e i else 0) = rest st.mat k i j

/-- Exchanging rows and columns that are still to be processed. -/
theorem rest_swap (D : Blk K n) (k r c : Fin n) (hr : k ≤ r) (hc : k ≤ c) (i j : Fin n) :
    rest (fun i j => D (Equiv.swap k r i) (Equiv.swap k c j)) k i j = rest D k (Equiv.swap k r i) (Equiv.swap k c j) := by
  have hs : ∀ (x : Fin n), k ≤ x → ∀ m : Fin n, m < k → Equiv.swap k x m = m := fun x hx m hm =>
    Equiv.swap_apply_of_ne_of_ne hm.ne (lt_of_lt_of_le hm hx).ne
  have hge : ∀ (x : Fin n), k ≤ x → ∀ m : Fin n, k ≤ m → k ≤ Equiv.swap k x m := by
    intro x hx m hm
    rcases eq_or_ne m k with rfl | h1
    · rw [Equiv.swap_apply_left]; exact hx
    · rcases eq_or_ne m x with rfl | h2
      · rw [Equiv.swap_apply_right]
      · rw [Equiv.swap_apply_of_ne_of_ne h1 h2]; exact hm
  have hlt : ∀ (x : Fin n), k ≤ x → ∀ m i : Fin n, m < k → (m < Equiv.swap k x i ↔ m < i) := by
    intro x hx m i hm
    rcases lt_or_ge i k with h | h
    · rw [hs x hx i h]
    · exact ⟨fun _ => lt_of_lt_of_le hm h, fun _ => lt_of_lt_of_le hm (hge x hx i h)⟩
  have hltk : ∀ (x : Fin n), k ≤ x → ∀ i : Fin n, (Equiv.swap k x i < k ↔ i < k) := by
    intro x hx i
    rcases lt_or_ge i k with h | h
    · rw [hs x hx i h]
    · exact ⟨fun h' => absurd (hge x hx i h) (not_le.mpr h'), fun h' => absurd h (not_le.mpr h')⟩
  unfold rest
  congr 1
  · apply Finset.sum_congr rfl
    intro m _
    by_cases hm : m < k
    · have e : ((m : Nat) < k ∧ m < i ∧ m < j) ↔ ((m : Nat) < k ∧ m < Equiv.swap k r i ∧ m < Equiv.swap k c j) := by
        rw [hlt r hr m i hm, hlt c hc m j hm]
      rw [if_congr e rfl rfl]
      split_ifs
      · show D _ (Equiv.swap k c m) * D (Equiv.swap k r m) _ = _
        rw [hs c hc m hm, hs r hr m hm]
      · rfl
    · rw [if_neg (fun h => hm h.1), if_neg (fun h => hm h.1)]
  · by_cases hj : j < k
    · have e : (j < i ∧ (j : Nat) < k) ↔ (Equiv.swap k c j < Equiv.swap k r i ∧ (Equiv.swap k c j : Nat) < k) := by
        rw [hs c hc j hj, hlt r hr j i hj]
      rw [if_congr e rfl rfl]
      show (if _ then D _ (Equiv.swap k c j) * D (Equiv.swap k r j) (Equiv.swap k c j) else D _ (Equiv.swap k c j)) = _
      rw [hs c hc j hj, hs r hr j hj]
    · rw [if_neg (fun h => hj h.2), if_neg (fun h => hj ((hltk c hc j).mp h.2))]

/-- Replacing the next pivot changes nothing but that entry. -/
theorem rest_set (D : Blk K n) (k : Fin n) (v : K) (i j : Fin n) :
    rest (setEntry D k k v) k i j = rest D k i j + if i = k ∧ j = k then v - D k k else 0 := by
  unfold rest setEntry
  have e1 : ∀ m : Fin n, (if (m : Nat) < k ∧ m < i ∧ m < j then (if i = k ∧ m = k then v else D i m) * (if m = k ∧ j = k then v else D m j) else 0) =
      if (m : Nat) < k ∧ m < i ∧ m < j then D i m * D m j else 0 := by
    intro m
    split_ifs with h1 h2 h3 h4
    · exact absurd h1.1 (by rw [h2.2]; exact lt_irrefl _)
    · exact absurd h1.1 (by rw [h2.2]; exact lt_irrefl _)
    · exact absurd h1.1 (by rw [h4.1]; exact lt_irrefl _)
    · rfl
    · rfl
  simp only [e1]
  rw [add_assoc]
  congr 1
  by_cases h : i = k ∧ j = k
  · obtain ⟨rfl, rfl⟩ := h
    simp
  · by_cases hj : j < i ∧ (j : Nat) < k
    · have : j ≠ k := fun e => by rw [e] at hj; exact lt_irrefl _ hj.2
      simp [hj, this]
    · rw [if_neg hj, if_neg hj, if_neg h, if_neg h, add_zero]

/-- Elimination with a non-zero pivot preserves what the factors multiply to. -/
theorem rest_eliminate (D : Blk K n) (k : Fin n) (hk : D k k ≠ 0) (i j : Fin n) :
    rest (eliminate D k) (k + 1) i j = rest D k i j := by
  have hE : ∀ i j, eliminate D k i j = if k < i ∧ k < j then D i j - D i k / D k k * D k j else if k < i ∧ j = k then D i k / D k k else D i j := by
    intro i j
    unfold eliminate
    simp only
    split_ifs with h1 h2 h3 h4 h5 <;> simp_all
  have hrow : ∀ m j, ¬ k < m → eliminate D k m j = D m j := fun m j h => by
    rw [hE, if_neg (fun h' => h h'.1), if_neg (fun h' => h h'.1)]
  have hcol : ∀ i m, m < k → eliminate D k i m = D i m := fun i m h => by
    rw [hE, if_neg (fun h' => absurd h'.2 (not_lt.mpr h.le)), if_neg (fun h' => h.ne h'.2)]
  unfold rest
  have hsum : (∑ m : Fin n, if (m : Nat) < k + 1 ∧ m < i ∧ m < j then eliminate D k i m * eliminate D k m j else 0) =
      (∑ m : Fin n, if (m : Nat) < k ∧ m < i ∧ m < j then D i m * D m j else 0) +
        if k < i ∧ k < j then eliminate D k i k * eliminate D k k j else 0 := by
    have : ∀ m : Fin n, (if (m : Nat) < k + 1 ∧ m < i ∧ m < j then eliminate D k i m * eliminate D k m j else 0) =
        (if (m : Nat) < k ∧ m < i ∧ m < j then D i m * D m j else 0) +
          if m = k then (if k < i ∧ k < j then eliminate D k i k * eliminate D k k j else 0) else 0 := by
      intro m
      rcases lt_trichotomy m k with h | h | h
      · have h1 : (m : Nat) < k + 1 := by have : (m : Nat) < k := h; omega
        have h2 : (m : Nat) < k := h
        rw [if_neg h.ne, add_zero, hcol i m h, hrow m j (not_lt.mpr h.le)]
        simp [h1, h2]
      · subst h; simp
      · have h1 : ¬ (m : Nat) < k + 1 := by have : (k : Nat) < m := h; omega
        have h2 : ¬ (m : Nat) < k := by have : (k : Nat) < m := h; omega
        simp [h1, h2, h.ne']
    simp only [this, Finset.sum_add_distrib, Finset.sum_ite_eq', Finset.mem_univ, if_true]
  rw [hsum, add_assoc]
  congr 1
  by_cases hi : k < i
  · rcases lt_trichotomy j k with hj | hj | hj
    · -- left of the pivot column
      have h1 : ¬ k < j := not_lt.mpr hj.le
      have h2 : (j : Nat) < k + 1 := by have : (j : Nat) < k := hj; omega
      have h3 : (j : Nat) < k := hj
      simp only [h1, and_false, if_false, zero_add, h2, h3, lt_trans hj hi, and_true, if_true]
      rw [hcol i j hj, hcol j j hj]
    · subst hj
      simp only [lt_irrefl, and_false, if_false, zero_add, hi, true_and, Nat.lt_succ_self, if_true]
      rw [hE, if_neg (by simp), if_pos ⟨hi, rfl⟩, hrow j j (lt_irrefl _), div_mul_cancel₀ _ hk]
    · have h2 : ¬ (j : Nat) < k + 1 := by have : (k : Nat) < j := hj; omega
      have h3 : ¬ (j : Nat) < k := by have : (k : Nat) < j := hj; omega
      simp only [hi, hj, and_self, if_true, h2, h3, and_false, if_false]
      rw [hE i k, if_neg (by simp), if_pos ⟨hi, rfl⟩, hrow k j (lt_irrefl _), hE i j, if_pos ⟨hi, hj⟩]
      ring
  · have hki : ¬ (k < i ∧ k < j) := fun h => hi h.1
    rw [if_neg hki, zero_add, hrow i j hi]
    by_cases hj : j < i
    · have h1 : j < k := lt_of_lt_of_le hj (not_lt.mp hi)
      have h2 : (j : Nat) < k + 1 := by have : (j : Nat) < k := h1; omega
      have h3 : (j : Nat) < k := h1
      simp only [hj, h2, h3, and_self, if_true]
      rw [hcol j j h1]
    · simp [hj]

theorem eliminate_diag (D : Blk K n) (k m : Fin n) (h : m ≤ k) : eliminate D k m m = D m m := by
  unfold eliminate
  simp [not_lt.mpr h]

theorem inv_step {thr : ℝ} (hthr : 0 ≤ thr) (use : Bool) {A : Blk K n} {flag : Bool} (k : Fin n) (st : Fact K n)
    (h : Inv thr A flag k st) : Inv thr A flag (k + 1) (pivotStep thr use st k) := by
  obtain ⟨b1, b2, b3⟩ := biggest_spec st.mat k
  unfold pivotStep
  simp only
  set b := biggest st.mat k with hb
  split_ifs with hstop
  · refine ⟨fun _ => ?_, h.flagged, fun h' => absurd h' (by simp), fun h' => absurd h' (by simp)⟩
    rcases hstop with hs | ⟨hs, _⟩
    · exact h.stopped hs
    · refine ⟨k, ?_⟩
      have h0 : ‖st.mat b.1 b.2‖ = 0 := by simpa using hs
      have := b3 k k le_rfl le_rfl
      rw [h0] at this
      exact norm_le_zero_iff.mp this
  · rw [not_or] at hstop
    have hns : st.stopped = false := by simpa using hstop.1
    obtain ⟨p1, p2, p3⟩ := perturb_norm thr (st.mat b.1 b.2) st.flag hthr
    obtain ⟨f1, f2⟩ := perturb_flag thr (st.mat b.1 b.2) st.flag
    set v := perturb thr (st.mat b.1 b.2) st.flag with hv
    set D : Blk K n := fun i j => st.mat (Equiv.swap k b.1 i) (Equiv.swap k b.2 j) with hD
    have hset : (fun i j => setEntry st.mat b.1 b.2 v.1 (Equiv.swap k b.1 i) (Equiv.swap k b.2 j)) = setEntry D k k v.1 := by
      funext i j
      unfold setEntry
      have e1 : Equiv.swap k b.1 i = b.1 ↔ i = k := by
        rw [Equiv.swap_apply_eq_iff, Equiv.swap_apply_right]
      have e2 : Equiv.swap k b.2 j = b.2 ↔ j = k := by
        rw [Equiv.swap_apply_eq_iff, Equiv.swap_apply_right]
      rw [if_congr (and_congr e1 e2) rfl rfl]
    rw [hset]
    have hDkk : D k k = st.mat b.1 b.2 := by simp [hD]
    set D' := setEntry D k k v.1 with hD'
    have hD'kk : D' k k = v.1 := by simp [hD', setEntry]
    have hlow : ∀ m : Fin n, m < k → Equiv.swap k b.1 m = m ∧ Equiv.swap k b.2 m = m := fun m hm =>
      ⟨Equiv.swap_apply_of_ne_of_ne hm.ne (lt_of_lt_of_le hm b1).ne, Equiv.swap_apply_of_ne_of_ne hm.ne (lt_of_lt_of_le hm b2).ne⟩
    have hgek : ∀ (x : Fin n), k ≤ x → ∀ m : Fin n, k ≤ m → k ≤ Equiv.swap k x m := by
      intro x hx m hm
      rcases eq_or_ne m k with rfl | h1
      · rw [Equiv.swap_apply_left]; exact hx
      · rcases eq_or_ne m x with rfl | h2
        · rw [Equiv.swap_apply_right]
        · rw [Equiv.swap_apply_of_ne_of_ne h1 h2]; exact hm
    refine ⟨fun h' => absurd h' (by simp), fun h' => h.flagged (f1 h').1, fun _ i j hij hjk => ?_, fun _ hdiag => ?_⟩
    · show ‖eliminate D' k i j‖ ≤ 1
      rcases lt_or_eq_of_le (Nat.le_of_lt_succ hjk) with hj | hj
      · have hj' : j < k := hj
        have : eliminate D' k i j = D i j := by
          have hne : ¬ (i = k ∧ j = k) := fun e => hj'.ne e.2
          simp [eliminate, not_lt.mpr hj'.le, hj'.ne, hD', setEntry]
        rw [this, hD]
        simp only
        rw [(hlow j hj').2]
        refine h.small hns _ j ?_ hj
        rcases lt_or_ge i k with hi | hi
        · rw [(hlow i hi).1]; exact hij
        · exact lt_of_lt_of_le hj' (hgek b.1 b1 i hi)
      · have hj' : j = k := Fin.ext hj
        subst hj'
        have : eliminate D' j i j = D i j / v.1 := by
          have hne : i ≠ j := hij.ne'
          simp only [eliminate, lt_irrefl, and_false, if_false, hij, true_and, if_true, hD'kk]
          congr 1
          simp [hD', setEntry, hne]
        rw [this, norm_div]
        apply div_le_one_of_le₀ _ (norm_nonneg _)
        refine le_trans ?_ p2
        rw [hD]
        simp only
        rw [Equiv.swap_apply_left]
        exact b3 _ _ (hgek b.1 b1 i hij.le) b2
    · have hdk : v.1 ≠ 0 := by
        have := hdiag k (Nat.lt_succ_self _)
        rw [show (Fact.mat { mat := eliminate D' k, rows := Function.update st.rows k b.1, cols := Function.update st.cols k b.2, maxPivot := max st.maxPivot v.2.1, flag := v.2.2, stopped := false : Fact K n } : Blk K n) k k = eliminate D' k k k from rfl, eliminate_diag D' k k le_rfl, hD'kk] at this
        exact this
      have hprev : ∀ m : Fin n, (m : Nat) < k → st.mat m m ≠ 0 := by
        intro m hm
        have hm' : m < k := hm
        have := hdiag m (Nat.lt_succ_of_lt hm)
        rw [show (Fact.mat { mat := eliminate D' k, rows := Function.update st.rows k b.1, cols := Function.update st.cols k b.2, maxPivot := max st.maxPivot v.2.1, flag := v.2.2, stopped := false : Fact K n } : Blk K n) m m = eliminate D' k m m from rfl, eliminate_diag D' k m hm'.le] at this
        simpa [hD', setEntry, hm'.ne, hD, (hlow m hm').1, (hlow m hm').2] using this
      obtain ⟨e, e1, e2, e3, e4⟩ := h.factor hns hprev
      refine ⟨Function.update e k (v.1 - st.mat b.1 b.2), ?_, ?_, ?_, ?_⟩
      · intro i
        rcases eq_or_ne i k with rfl | hi
        · rw [Function.update_self]; exact p1
        · rw [Function.update_of_ne hi]; exact e1 i
      · intro i hi
        rw [Function.update_of_ne (by rintro rfl; omega)]
        exact e2 i (by omega)
      · intro hf
        obtain ⟨g1, g2⟩ := f1 hf
        rw [g2, sub_self, e3 g1]
        simp
      · intro i j
        show A (swaps (Function.update st.rows k b.1) (k + 1) i) (swaps (Function.update st.cols k b.2) (k + 1) j) + _ =
          rest (eliminate D' k) (k + 1) i j
        rw [rest_eliminate D' k (by rw [hD'kk]; exact hdk), rest_set, rest_swap st.mat k b.1 b.2 b1 b2, swaps_succ, swaps_succ, ← e4,
          hDkk, Equiv.Perm.mul_apply, Equiv.Perm.mul_apply, add_assoc]
        congr 1
        by_cases hij : i = j
        · subst hij
          rcases lt_trichotomy i k with hi | hi | hi
          · rw [(hlow i hi).1, (hlow i hi).2]
            simp [hi.ne]
          · subst hi
            have hb0 : e b.1 = 0 := e2 _ b1
            simp only [Equiv.swap_apply_left, if_true, Function.update_self, and_self, hb0, ite_self, zero_add]
          · have h0 : e (Equiv.swap k b.1 i) = 0 := e2 _ (hgek b.1 b1 i hi.le)
            rw [h0]
            simp [hi.ne', e2 i hi.le]
        · have hne : ¬ (i = k ∧ j = k) := fun h => hij (h.1.trans h.2.symm)
          rw [if_neg hij, if_neg hne, add_zero]
          split_ifs with hs
          · rcases lt_or_ge i k with hi | hi
            · rcases lt_or_ge j k with hj | hj
              · rw [(hlow i hi).1, (hlow j hj).2] at hs; exact absurd hs hij
              · rw [(hlow i hi).1] at hs
                have := hgek b.2 b2 j hj
                rw [← hs] at this
                exact absurd this (not_le.mpr hi)
            · exact (e2 _ (hgek b.1 b1 i hi)).symm
          · rfl

theorem inv_loop {thr : ℝ} (hthr : 0 ≤ thr) (use : Bool) (A : Blk K n) (flag : Bool) :
    Inv thr A flag n (pivotLoop thr use A flag) := by
  unfold pivotLoop
  refine foldl_take_induct (pivotStep thr use) _ (Inv thr A flag) ?_ (inv_step hthr use)
  refine ⟨by simp, fun h => h, by simp, fun _ _ => ⟨0, fun _ => by simpa using hthr, by simp, by simp, fun i j => ?_⟩⟩
  simp [swaps, rest]

/-- **The factorisation of a block.** If it succeeds, the packed factors multiply to the permuted block, plus a diagonal
perturbation that is at most the threshold and zero if the flag is not set. No pivot is zero and all multipliers are at most one. -/
theorem factorizeBlock_correct {thr : ℝ} (hthr : 0 ≤ thr) (use : Bool) (A : Blk K n) (flag : Bool) (lu : Blk K n) (bp : BlockPerm n)
    (flag' : Bool) (h : factorizeBlock thr use A flag = some (lu, bp, flag')) :
    (∃ e : Fin n → K, (∀ i, ‖e i‖ ≤ thr) ∧ (flag' = false → e = 0) ∧
      lowerUnit lu * upper lu = permRows bp.p (permCols A bp.q) + Matrix.diagonal e) ∧
    (flag' = false → flag = false) ∧ (∀ k, lu k k ≠ 0) ∧ ∀ i j, j < i → ‖lu i j‖ ≤ 1 := by
  have I := inv_loop hthr use A flag
  unfold factorizeBlock at h
  simp only at h
  set st := pivotLoop thr use A flag
  generalize ht : (if st.flag = true then 0 else machineEps * st.maxPivot) = t at h
  split_ifs at h with hbad
  injection h with h
  simp only [Prod.mk.injEq] at h
  obtain ⟨rfl, rfl, rfl⟩ := h
  have hbad : ∀ k, ¬ ‖st.mat k k‖ < t ∧ st.mat k k ≠ 0 := by
    intro k
    constructor <;> intro hk <;> exact hbad ⟨k, by simp [hk]⟩
  have hns : st.stopped = false := by
    cases hs : st.stopped with
    | false => rfl
    | true =>
      obtain ⟨m, hm⟩ := I.stopped hs
      exact absurd hm (hbad m).2
  obtain ⟨e, e1, _, e3, e4⟩ := I.factor hns (fun m _ => (hbad m).2)
  refine ⟨⟨e, e1, e3, ?_⟩, I.flagged, fun k => (hbad k).2, fun i j hij => I.small hns i j hij j.isLt⟩
  have hall : ∀ t : Fin n → Fin n, swaps t n = ((List.finRange n).map fun m => Equiv.swap m (t m)).prod := by
    intro t
    unfold swaps
    rw [List.take_of_length_le (by simp)]
  ext i j
  have hp : ((List.finRange n).reverse.foldl (fun p k => p * Equiv.swap k (st.rows k)) 1).symm i = swaps st.rows n i := by
    rw [foldl_mul_prod, one_mul, hall]
    rw [show Equiv.symm _ = ((List.map (fun k => Equiv.swap k (st.rows k)) (List.finRange n).reverse).prod)⁻¹ from rfl,
      List.prod_inv_reverse, List.map_reverse, List.map_reverse, List.reverse_reverse, List.map_map]
    congr 2
  have hq : (List.finRange n).foldl (fun p k => p * Equiv.swap k (st.cols k)) 1 = swaps st.cols n := by
    rw [foldl_mul_prod, one_mul, hall]
  have h4 := e4 i j
  rw [Matrix.add_apply, Matrix.diagonal_apply]
  show _ = A (_) (_) + _
  rw [hp, hq, h4, Matrix.mul_apply]
  unfold rest lowerUnit upper
  -- the products of the factors
  have : ∀ m, (if m < i then st.mat i m else if i = m then 1 else 0) * (if m ≤ j then st.mat m j else 0) =
      (if (m : Nat) < n ∧ m < i ∧ m < j then st.mat i m * st.mat m j else 0) +
        ((if m = i then (if i ≤ j then st.mat i j else 0) else 0) + if m = j then (if j < i then st.mat i j * st.mat j j else 0) else 0) := by
    intro m
    have hm : (m : Nat) < n := m.isLt
    simp only [hm, true_and]
    rcases lt_trichotomy m i with h1 | h1 | h1
    · rcases lt_trichotomy m j with h2 | h2 | h2
      · simp [h1, h2, h2.le, h1.ne, h2.ne]
      · subst h2; simp [h1, h1.ne]
      · simp [h1, h1.ne, h2.ne', not_le.mpr h2, not_lt.mpr h2.le]
    · subst h1
      by_cases h2 : m = j
      · subst h2; simp
      · simp [h2]
    · by_cases h2 : m = j
      · subst h2; simp [h1.ne, h1.ne', not_lt.mpr h1.le]
      · simp [h1.ne, h1.ne', not_lt.mpr h1.le, h2]
  simp only [this, Finset.sum_add_distrib, Finset.sum_ite_eq', Finset.mem_univ, if_true]
  congr 1
  by_cases hij : j < i
  · simp [hij, not_le.mpr hij, j.isLt]
  · simp [hij, not_lt.mp hij]

theorem lowerUnit_injective (lu : Blk K n) (y : Fin n → K) (h : (lowerUnit lu).mulVec y = 0) : y = 0 := by
  have : ∀ m, ∀ i : Fin n, (i : Nat) = m → y i = 0 := by
    intro m
    induction m using Nat.strong_induction_on with
    | _ m ih =>
      intro i hi
      have := congrFun h i
      rw [Matrix.mulVec, dotProduct, Finset.sum_eq_single i] at this
      · simpa [lowerUnit] using this
      · intro j _ hj
        rcases lt_or_gt_of_ne hj with h1 | h1
        · rw [ih j (by rw [← hi]; exact h1) j rfl, mul_zero]
        · simp [lowerUnit, not_lt.mpr h1.le, h1.ne]
      · simp
  funext i
  exact this i i rfl

theorem upper_injective (lu : Blk K n) (hd : ∀ k, lu k k ≠ 0) (y : Fin n → K) (h : (upper lu).mulVec y = 0) : y = 0 := by
  have : ∀ m, ∀ i : Fin n, n - (i : Nat) = m → y i = 0 := by
    intro m
    induction m using Nat.strong_induction_on with
    | _ m ih =>
      intro i hi
      have := congrFun h i
      rw [Matrix.mulVec, dotProduct, Finset.sum_eq_single i] at this
      · simpa [upper, hd i] using this
      · intro j _ hj
        rcases lt_or_gt_of_ne hj with h1 | h1
        · simp [upper, not_le.mpr h1]
        · have h2 : (i : Nat) < j := h1
          rw [ih (n - j) (by have := j.isLt; omega) j rfl, mul_zero]
      · simp
  funext i
  exact this _ i rfl

/-- Without perturbation, a singular block is rejected. -/
theorem singular_rejected (A : Blk K n) (flag : Bool) (x : Fin n → K) (hx : x ≠ 0) (hA : A.mulVec x = 0) :
    factorizeBlock 0 false A flag = none := by
  cases h : factorizeBlock 0 false A flag with
  | none => rfl
  | some r =>
    exfalso
    obtain ⟨lu, bp, flag'⟩ := r
    obtain ⟨⟨e, e1, _, e3⟩, _, hd, _⟩ := factorizeBlock_correct le_rfl false A flag lu bp flag' h
    have e0 : e = 0 := by
      funext i
      exact norm_le_zero_iff.mp (e1 i)
    subst e0
    rw [show Matrix.diagonal (0 : Fin n → K) = 0 from Matrix.diagonal_zero, add_zero] at e3
    -- the permuted vector is mapped to zero
    set y : Fin n → K := fun j => x (bp.q j)
    have hy : (permRows bp.p (permCols A bp.q) : Blk K n).mulVec y = 0 := by
      funext i
      have := congrFun hA (bp.p.symm i)
      rw [Matrix.mulVec, dotProduct] at this ⊢
      rw [Pi.zero_apply] at this ⊢
      rw [← this, ← Equiv.sum_comp bp.q (fun j => A (bp.p.symm i) j * x j)]
      rfl
    rw [← e3, ← Matrix.mulVec_mulVec] at hy
    have hz := lowerUnit_injective lu _ hy
    have hy0 := upper_injective lu hd _ hz
    apply hx
    funext i
    have := congrFun hy0 (bp.q.symm i)
    simpa [y] using this

end PGM.Lu
