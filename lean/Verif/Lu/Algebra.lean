import Verif.Lu.Refine

/-!
# The product of the factors
-/

namespace PGM.Lu

variable {K : Type} [RCLike K] {n : Nat} {p : Pattern} {N : Nat} {pat : Nat → Nat → Prop}

/-! ## Permutations and products -/

theorem permRows_mul (q : Equiv.Perm (Fin n)) (A B : Blk K n) : permRows q (A * B) = permRows q A * B := by
  ext i j; simp [permRows, Matrix.mul_apply]

theorem mul_permCols (q : Equiv.Perm (Fin n)) (A B : Blk K n) : permCols (A * B) q = A * permCols B q := by
  ext i j; simp [permCols, Matrix.mul_apply]

theorem permRows_add (q : Equiv.Perm (Fin n)) (A B : Blk K n) : permRows q (A + B) = permRows q A + permRows q B := rfl

theorem permCols_add (q : Equiv.Perm (Fin n)) (A B : Blk K n) : permCols (A + B) q = permCols A q + permCols B q := rfl

theorem permRows_sum (q : Equiv.Perm (Fin n)) {ι : Type} (s : Finset ι) (A : ι → Blk K n) :
    permRows q (∑ m ∈ s, A m) = ∑ m ∈ s, permRows q (A m) := by
  classical
  induction s using Finset.induction_on with
  | empty => rfl
  | insert a s ha ih => rw [Finset.sum_insert ha, Finset.sum_insert ha, permRows_add, ih]

theorem permCols_sum (q : Equiv.Perm (Fin n)) {ι : Type} (s : Finset ι) (A : ι → Blk K n) :
    permCols (∑ m ∈ s, A m) q = ∑ m ∈ s, permCols (A m) q := by
  classical
  induction s using Finset.induction_on with
  | empty => rfl
  | insert a s ha ih => rw [Finset.sum_insert ha, Finset.sum_insert ha, permCols_add, ih]

/-- The permutation of row `i` if it is row `k`. -/
def rowT (k : Nat) (bp : BlockPerm n) (i : Nat) (A : Blk K n) : Blk K n := if i = k then permRows bp.p A else A

/-- The permutation of column `j` if it is column `k`. -/
def colT (k : Nat) (bp : BlockPerm n) (j : Nat) (A : Blk K n) : Blk K n := if j = k then permCols A bp.q else A

theorem rowT_mul (k : Nat) (bp : BlockPerm n) (i : Nat) (A B : Blk K n) : rowT k bp i (A * B) = rowT k bp i A * B := by
  unfold rowT; split_ifs
  · exact permRows_mul _ _ _
  · rfl

theorem colT_mul (k : Nat) (bp : BlockPerm n) (i : Nat) (A B : Blk K n) : colT k bp i (A * B) = A * colT k bp i B := by
  unfold colT; split_ifs
  · exact mul_permCols _ _ _
  · rfl

theorem rowT_add (k : Nat) (bp : BlockPerm n) (i : Nat) (A B : Blk K n) : rowT k bp i (A + B) = rowT k bp i A + rowT k bp i B := by
  unfold rowT; split_ifs <;> rfl

theorem colT_add (k : Nat) (bp : BlockPerm n) (i : Nat) (A B : Blk K n) : colT k bp i (A + B) = colT k bp i A + colT k bp i B := by
  unfold colT; split_ifs <;> rfl

theorem rowT_sum (k : Nat) (bp : BlockPerm n) (i : Nat) {ι : Type} (s : Finset ι) (A : ι → Blk K n) :
    rowT k bp i (∑ m ∈ s, A m) = ∑ m ∈ s, rowT k bp i (A m) := by
  unfold rowT; split_ifs
  · exact permRows_sum _ _ _
  · rfl

theorem colT_sum (k : Nat) (bp : BlockPerm n) (i : Nat) {ι : Type} (s : Finset ι) (A : ι → Blk K n) :
    colT k bp i (∑ m ∈ s, A m) = ∑ m ∈ s, colT k bp i (A m) := by
  unfold colT; split_ifs
  · exact permCols_sum _ _ _
  · rfl

/-! ## The factors -/

/-- The lower factor. -/
def lowerF (M : Nat → Nat → Blk K n) (i m : Nat) : Blk K n := if m < i then M i m else if m = i then lowerUnit (M i i) else 0

/-- The upper factor. -/
def upperF (M : Nat → Nat → Blk K n) (m j : Nat) : Blk K n := if m < j then M m j else if m = j then upper (M m m) else 0

/-- The matrix with the permutations of the rows and columns before `k`. -/
def permuted (bps : Nat → BlockPerm n) (k : Nat) (A : Nat → Nat → Blk K n) (i j : Nat) : Blk K n :=
  let X := if i < k then permRows (bps i).p (A i j) else A i j
  if j < k then permCols X (bps j).q else X

/-- What is left to be factorised. -/
def remains (M : Nat → Nat → Blk K n) (k i j : Nat) : Blk K n := if k ≤ i ∧ k ≤ j then M i j else 0

theorem permuted_succ (bps : Nat → BlockPerm n) (k : Nat) (bp : BlockPerm n) (A : Nat → Nat → Blk K n) (i j : Nat) :
    permuted (Function.update bps k bp) (k + 1) A i j = rowT k bp i (colT k bp j (permuted bps k A i j)) := by
  have hi : (if i < k + 1 then permRows (Function.update bps k bp i).p (A i j) else A i j) =
      if i = k then permRows bp.p (A i j) else if i < k then permRows (bps i).p (A i j) else A i j := by
    by_cases h : i = k
    · subst h; simp
    · have : i < k + 1 ↔ i < k := by omega
      simp [h, this]
  unfold permuted rowT colT
  simp only
  rw [hi]
  by_cases hj : j = k
  · subst hj
    rw [if_pos (by omega), if_neg (Nat.lt_irrefl _), if_pos rfl, Function.update_self]
    by_cases h : i = j
    · subst h; simp; rfl
    · simp [h]
  · have : j < k + 1 ↔ j < k := by omega
    rw [if_neg hj, Function.update_of_ne hj]
    simp only [this]
    by_cases h : i = k
    · subst h; simp; split_ifs <;> rfl
    · simp [h]

theorem factor_step {k : Nat} (lu : Blk K n) (hd : ∀ t, lu t t ≠ 0) (bp : BlockPerm n) (e : Fin n → K) (M : Nat → Nat → Blk K n)
    (hlu : lowerUnit lu * upper lu = permRows bp.p (permCols (M k k) bp.q) + Matrix.diagonal e) (i j : Nat) :
    (∑ m ∈ Finset.range (k + 1), lowerF (stepM k lu bp M) i m * upperF (stepM k lu bp M) m j) + remains (stepM k lu bp M) (k + 1) i j =
      rowT k bp i (colT k bp j ((∑ m ∈ Finset.range k, lowerF M i m * upperF M m j) + remains M k i j)) +
        if i = k ∧ j = k then Matrix.diagonal e else 0 := by
  have hL : ∀ m ∈ Finset.range k, lowerF (stepM k lu bp M) i m * upperF (stepM k lu bp M) m j =
      rowT k bp i (colT k bp j (lowerF M i m * upperF M m j)) := by
    intro m hm
    have hm := Finset.mem_range.mp hm
    rw [colT_mul, rowT_mul]
    congr 1
    · unfold lowerF rowT stepM
      by_cases hik : i = k
      · subst hik
        simp [hm, hm.ne]
      · by_cases hmi : m < i
        · simp [hmi, hik, hm.ne, not_lt.mpr hm.le]
        · by_cases hmi' : m = i
          · subst hmi'
            simp [hik, not_lt.mpr hm.le]
          · simp [hmi, hmi', hik]
    · unfold upperF colT stepM
      by_cases hjk : j = k
      · subst hjk
        simp [hm, hm.ne]
      · by_cases hmj : m < j
        · simp [hmj, hjk, hm.ne, not_lt.mpr hm.le]
        · by_cases hmj' : m = j
          · subst hmj'
            simp [hjk, not_lt.mpr hm.le]
          · simp [hmj, hmj', hjk]
  rw [Finset.sum_range_succ, Finset.sum_congr rfl hL, colT_add, rowT_add, colT_sum, rowT_sum, add_assoc, add_assoc]
  congr 1
  rcases Nat.lt_trichotomy i k with hi | rfl | hi
  · have h1 : lowerF (stepM k lu bp M) i k = 0 := by unfold lowerF; rw [if_neg (by omega), if_neg (by omega)]
    have h2 : ∀ M' : Nat → Nat → Blk K n, ∀ k', k ≤ k' → remains M' k' i j = 0 := fun M' k' h => by unfold remains; rw [if_neg (by omega)]
    rw [h1, h2 _ _ (by omega), h2 _ _ le_rfl, if_neg (by omega), zero_mul]
    unfold rowT colT
    rw [if_neg (by omega)]
    split_ifs
    · simp [permCols_zero]
    · simp
  · rcases Nat.lt_trichotomy j i with hj | rfl | hj
    · have h1 : upperF (stepM i lu bp M) i j = 0 := by unfold upperF; rw [if_neg (by omega), if_neg (by omega)]
      have h2 : ∀ M' : Nat → Nat → Blk K n, ∀ k', i ≤ k' → remains M' k' i j = 0 := fun M' k' h => by unfold remains; rw [if_neg (by omega)]
      rw [h1, h2 _ _ (by omega), h2 _ _ le_rfl, if_neg (by omega), mul_zero]
      unfold rowT colT
      rw [if_pos rfl, if_neg (by omega), permRows_zero]
    · have h1 : lowerF (stepM j lu bp M) j j = lowerUnit lu := by simp [lowerF, stepM]
      have h2 : upperF (stepM j lu bp M) j j = upper lu := by simp [upperF, stepM]
      rw [h1, h2, hlu]
      simp [remains, rowT, colT]
    · have h1 : lowerF (stepM i lu bp M) i i = lowerUnit lu := by simp [lowerF, stepM]
      have h2 : upperF (stepM i lu bp M) i j = lsolve lu (permRows bp.p (M i j)) := by
        simp [upperF, stepM, hj, hj.ne', not_lt.mpr hj.le]
      rw [h1, h2, lsolve_mul]
      simp [remains, rowT, colT, hj.ne', hj.le]
  · rcases Nat.lt_trichotomy j k with hj | rfl | hj
    · have h1 : upperF (stepM k lu bp M) k j = 0 := by unfold upperF; rw [if_neg (by omega), if_neg (by omega)]
      have h2 : ∀ M' : Nat → Nat → Blk K n, ∀ k', k ≤ k' → remains M' k' i j = 0 := fun M' k' h => by unfold remains; rw [if_neg (by omega)]
      rw [h1, h2 _ _ (by omega), h2 _ _ le_rfl, if_neg (by omega), mul_zero]
      unfold rowT colT
      rw [if_neg (by omega), if_neg (by omega)]
    · have h1 : lowerF (stepM j lu bp M) i j = lowerBlock lu bp (M i j) := by
        simp [lowerF, stepM, hi, hi.ne', not_lt.mpr hi.le]
      have h2 : upperF (stepM j lu bp M) j j = upper lu := by simp [upperF, stepM]
      rw [h1, h2, lowerBlock_mul lu hd]
      simp [remains, rowT, colT, hi.ne', hi.le]
    · have h1 : lowerF (stepM k lu bp M) i k = lowerBlock lu bp (M i k) := by
        simp [lowerF, stepM, hi, hi.ne', not_lt.mpr hi.le]
      have h2 : upperF (stepM k lu bp M) k j = lsolve lu (permRows bp.p (M k j)) := by
        simp [upperF, stepM, hj, hj.ne', not_lt.mpr hj.le]
      rw [h1, h2]
      simp [remains, rowT, colT, hi.ne', hi.le, hj.ne', hj.le, Nat.succ_le_of_lt hi, Nat.succ_le_of_lt hj, stepM, hi, hj]

/-- What is known after the pivots before `k`. -/
structure LuInv (p : Pattern) (N : Nat) (pat : Nat → Nat → Prop) (thr : ℝ) (A : Nat → Nat → Blk K n) (k : Nat) (st : LuState K n)
    (M : Nat → Nat → Blk K n) (bps : Nat → BlockPerm n) (e : Nat → Fin n → K) : Prop where
  rep : Rep p N st.data M
  zero : ZeroOut N pat M
  pos : CPos p N st.colPos (fun _ => k)
  permLen : st.perms.length = N
  perms : ∀ r, r < k → st.perms[r]? = some (bps r)
  diag : ∀ r, r < k → ∀ t, M r r t t ≠ 0
  small : ∀ r t, ‖e r t‖ ≤ thr
  exact : st.flag = false → ∀ r, e r = 0
  factor : ∀ i j, permuted bps k A i j + (if i = j ∧ i < k then Matrix.diagonal (e i) else 0) =
    (∑ m ∈ Finset.range k, lowerF M i m * upperF M m j) + remains M k i j

theorem lu_step (hv : p.Valid N pat) {thr : ℝ} (hthr : 0 ≤ thr) (use : Bool) {A : Nat → Nat → Blk K n} {k : Nat} (hk : k < N)
    {st : LuState K n} {M : Nat → Nat → Blk K n} {bps : Nat → BlockPerm n} {e : Nat → Fin n → K} (I : LuInv p N pat thr A k st M bps e) :
    Good (pivotAt p thr use st k) (fun st' => ∃ M' bps' e', LuInv p N pat thr A (k + 1) st' M' bps' e') := by
  rcases pivot_step hv hk thr use M st I.zero I.rep I.pos I.permLen with ⟨_, h⟩ | ⟨lu, bp, flag, st', hf, h, R, Z, C, hP, hF⟩
  · exact Or.inl h
  · right
    obtain ⟨⟨ek, he1, he2, he3⟩, hflag, hd, _⟩ := factorizeBlock_correct hthr use _ _ lu bp flag hf
    refine ⟨st', h, stepM k lu bp M, Function.update bps k bp, Function.update e k ek, R, Z, C, ?_, ?_, ?_, ?_, ?_, ?_⟩
    · rw [hP, List.length_set]; exact I.permLen
    · intro r hr
      rw [hP]
      by_cases hrk : r = k
      · subst hrk
        rw [List.getElem?_set_self (by rw [I.permLen]; exact hk), Function.update_self]
      · rw [List.getElem?_set_ne (Ne.symm hrk), Function.update_of_ne hrk]
        exact I.perms r (by omega)
    · intro r hr t
      by_cases hrk : r = k
      · subst hrk
        simpa [stepM] using hd t
      · have := I.diag r (by omega) t
        simpa [stepM, hrk, show ¬ k < r by omega] using this
    · intro r t
      by_cases hrk : r = k
      · subst hrk; rw [Function.update_self]; exact he1 t
      · rw [Function.update_of_ne hrk]; exact I.small r t
    · intro hfl r
      rw [hF] at hfl
      by_cases hrk : r = k
      · subst hrk; rw [Function.update_self]; exact he2 hfl
      · rw [Function.update_of_ne hrk]; exact I.exact (hflag hfl) r
    · intro i j
      rw [factor_step lu hd bp ek M he3 i j, ← I.factor i j, permuted_succ, colT_add, rowT_add, add_assoc]
      congr 1
      by_cases hij : i = j
      · subst hij
        rcases Nat.lt_trichotomy i k with hi | rfl | hi
        · rw [if_pos ⟨rfl, by omega⟩, if_pos ⟨rfl, hi⟩, if_neg (by omega), Function.update_of_ne (by omega)]
          simp [rowT, colT, hi.ne]
        · rw [if_pos ⟨rfl, by omega⟩, if_neg (by omega), if_pos ⟨rfl, rfl⟩, Function.update_self]
          simp [rowT, colT, permRows_zero, permCols_zero]
        · rw [if_neg (by omega), if_neg (by omega), if_neg (by omega)]
          simp [rowT, colT, hi.ne']
      · rw [if_neg (by tauto), if_neg (by tauto), if_neg (by omega), add_zero]
        unfold rowT colT
        split_ifs <;> rfl

theorem foldl_max_nonneg {α : Type} (f : α → ℝ) (l : List α) (a : ℝ) (h : 0 ≤ a) : 0 ≤ l.foldl (fun m x => max m (f x)) a := by
  induction l generalizing a with
  | nil => exact h
  | cons x l ih => exact ih _ (le_max_of_le_left h)

theorem threshold_nonneg (p : Pattern) (use : Bool) (data : List (Blk K n)) : 0 ≤ threshold p use data := by
  unfold threshold
  split_ifs
  · refine mul_nonneg (by positivity) ?_
    exact foldl_max_nonneg _ _ _ le_rfl
  · exact le_rfl

/-- The factorisation reports a singular pivot, or the factors multiply to the permuted matrix. -/
theorem prefactorize_good (hv : p.Valid N pat) (use : Bool) (A : Nat → Nat → Blk K n) (data : List (Blk K n)) (perms : List (BlockPerm n))
    (hz : ZeroOut N pat A) (hrep : Rep p N data A) (hlen : perms.length = N) :
    Good (prefactorize p use data perms) (fun f => ∃ st M bps e, LuInv p N pat (threshold p use data) A N st M bps e ∧
      f = ⟨st.data, st.perms, st.flag⟩) := by
  unfold prefactorize
  rw [hv.size_eq]
  have hthr := threshold_nonneg p use data
  have := foldlM_range_good (pivotAt p (threshold p use data) use)
    (fun k st => ∃ M bps e, LuInv p N pat (threshold p use data) A k st M bps e) N ⟨data, p.rowIndptr.dropLast, perms, false⟩
    ⟨A, fun _ => ⟨1, 1⟩, fun _ => 0, hrep, hz, cpos_init hv, hlen, fun r hr => absurd hr (Nat.not_lt_zero r),
      fun r hr => absurd hr (Nat.not_lt_zero r), fun r t => by simpa using hthr, fun _ _ => rfl, fun i j => by simp [permuted, remains]⟩
    (fun k st hk hI => by
      obtain ⟨M, bps, e, I⟩ := hI
      exact lu_step hv hthr use hk I)
  rcases this with h | ⟨st, h, M, bps, e, I⟩
  · left; rw [h]; rfl
  · right
    exact ⟨_, by rw [h]; rfl, st, M, bps, e, I, rfl⟩

end PGM.Lu
