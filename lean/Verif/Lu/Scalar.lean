import Verif.Lu.Refinement

/-!
# Scalar entries: which matrices are accepted
-/

namespace PGM.Lu

variable {K : Type} [RCLike K] {p : Pattern} {N : Nat} {pat : Nat → Nat → Prop}

theorem factorizeBlock_scalar (use : Bool) (A : Blk K 1) (flag : Bool) (h : factorizeBlock 0 use A flag = none) : A 0 0 = 0 := by
  by_contra hA
  have hloop : pivotLoop 0 use A flag = ⟨A, fun _ => 0, fun _ => 0, ‖A 0 0‖, flag, false⟩ := by
    unfold pivotLoop
    have hr : List.finRange 1 = [0] := rfl
    rw [hr, List.foldl_cons, List.foldl_nil]
    unfold pivotStep
    have hb : biggest A 0 = (0, 0) := Subsingleton.elim _ _
    simp only [hb]
    have hnz : ‖A 0 0‖ ^ 2 ≠ 0 := by simpa using hA
    rw [if_neg (by rintro (h | h); exact absurd h (by simp); exact hnz h.1)]
    have hp : perturb 0 (A 0 0) flag = (A 0 0, ‖A 0 0‖, flag) := by
      unfold perturb
      rw [if_neg (not_lt.mpr (norm_nonneg _))]
    rw [hp]
    have hm : eliminate (fun i j => setEntry A 0 0 (A 0 0) (Equiv.swap 0 0 i) (Equiv.swap 0 0 j)) 0 = A := by
      funext i j
      have hi : i = 0 := Subsingleton.elim _ _
      have hj : j = 0 := Subsingleton.elim _ _
      subst hi hj
      simp [eliminate, setEntry]
    simp only
    congr 1
    · exact funext fun i => Subsingleton.elim _ _
    · exact funext fun i => Subsingleton.elim _ _
    · exact max_eq_right (norm_nonneg _)
  unfold factorizeBlock at h
  simp only [hloop] at h
  rw [if_neg] at h
  · exact absurd h (by simp)
  · rintro ⟨k, hk⟩
    have : k = 0 := Subsingleton.elim _ _
    subst this
    rcases hk with hk | hk
    · split_ifs at hk
      · exact absurd hk (not_lt.mpr (norm_nonneg _))
      · have h1 : machineEps ≤ 1 := by unfold machineEps; exact pow_le_one₀ (by positivity) (by norm_num)
        have := mul_le_of_le_one_left (norm_nonneg (A 0 0)) h1
        linarith
    · exact hA hk

theorem blk_sum_apply {n : Nat} {ι : Type} (S : Finset ι) (X : ι → Blk K n) (s t : Fin n) : (∑ m ∈ S, X m) s t = ∑ m ∈ S, X m s t := by
  classical
  induction S using Finset.induction_on with
  | empty => rfl
  | insert a S ha ih => rw [Finset.sum_insert ha, Finset.sum_insert ha, ← ih]; rfl

/-- A vector in the kernel of the rows before `k` of a triangular matrix. -/
theorem kernel_exists (U : Nat → Nat → K) (k : Nat) (hd : ∀ m, m < k → U m m ≠ 0) (hl : ∀ m c, c < m → U m c = 0) (d : Nat) (hdk : d ≤ k) :
    ∃ z : Nat → K, z k = 1 ∧ ∀ m, k - d ≤ m → m < k → ∑ c ∈ Finset.range (k + 1), U m c * z c = 0 := by
  induction d with
  | zero => exact ⟨fun _ => 1, rfl, fun m h1 h2 => absurd h2 (by omega)⟩
  | succ d ih =>
    obtain ⟨z, hz, hz'⟩ := ih (by omega)
    have hmk : k - d - 1 < k := by omega
    set m0 := k - d - 1 with hm0
    set S := ∑ c ∈ (Finset.range (k + 1)).erase m0, U m0 c * z c with hS
    refine ⟨Function.update z m0 (-(S / U m0 m0)), by rw [Function.update_of_ne (by omega)]; exact hz, fun m h1 h2 => ?_⟩
    have herase : ∀ m, ∑ c ∈ (Finset.range (k + 1)).erase m0, U m c * Function.update z m0 (-(S / U m0 m0)) c =
        ∑ c ∈ (Finset.range (k + 1)).erase m0, U m c * z c := by
      intro m
      apply Finset.sum_congr rfl
      intro c hc
      rw [Function.update_of_ne (Finset.ne_of_mem_erase hc)]
    rw [← Finset.add_sum_erase _ _ (Finset.mem_range.mpr (show m0 < k + 1 by omega)), Function.update_self, herase]
    by_cases hm : m = m0
    · rw [hm, ← hS]
      have := hd m0 hmk
      field_simp
      ring
    · have hlt : m0 < m := by omega
      have h3 := hz' m (by omega) h2
      rw [← Finset.add_sum_erase _ _ (Finset.mem_range.mpr (show m0 < k + 1 by omega)), hl m m0 hlt, zero_mul, zero_add] at h3
      rw [hl m m0 hlt, zero_mul, zero_add, h3]

theorem scalar_pivot {A M : Nat → Nat → Blk K 1} {st : LuState K 1} {bps : Nat → BlockPerm 1} {e : Nat → Fin 1 → K} {k : Nat}
    (I : LuInv p N pat 0 A k st M bps e)
    (hA : ∀ z : Nat → K, (∀ r, r < k + 1 → ∑ c ∈ Finset.range (k + 1), A r c 0 0 * z c = 0) → ∀ c, c < k + 1 → z c = 0) : M k k 0 0 ≠ 0 := by
  intro h0
  let U : Nat → Nat → K := fun m c => upperF M m c 0 0
  obtain ⟨z, hz, hz'⟩ := kernel_exists U k (fun m hm => by simpa [U, upperF, upper] using I.diag m hm 0)
    (fun m c hc => by simp only [U, upperF]; rw [if_neg (by omega), if_neg (by omega)]; rfl) k le_rfl
  have he : ∀ r, e r = 0 := fun r => by
    funext t
    have := I.small r t
    exact norm_le_zero_iff.mp this
  have hperm : ∀ i j, permuted bps k A i j = A i j := by
    intro i j
    have h1 : ∀ s t : Fin 1, s = t := fun s t => Subsingleton.elim s t
    have hX : ∀ q : Equiv.Perm (Fin 1), ∀ X : Blk K 1, permRows q X = X := fun q X => by
      funext s t
      show X _ _ = X _ _
      rw [h1 (q.symm s) s]
    have hY : ∀ q : Equiv.Perm (Fin 1), ∀ X : Blk K 1, permCols X q = X := fun q X => by
      funext s t
      show X _ _ = X _ _
      rw [h1 (q t) t]
    unfold permuted
    simp only
    split_ifs <;> simp [hX, hY]
  have hfac : ∀ i j, i < k + 1 → j < k + 1 → A i j 0 0 = ∑ m ∈ Finset.range k, lowerF M i m 0 0 * U m j := by
    intro i j hi hj
    have h1 := congrFun (congrFun (I.factor i j) 0) 0
    rw [hperm] at h1
    have hdiag : (if i = j ∧ i < k then Matrix.diagonal (e i) else 0 : Blk K 1) = 0 := by
      rw [he i]
      split_ifs <;> simp
    have hrem : remains M k i j = 0 := by
      unfold remains
      split_ifs with h
      · have e1 : i = k := by omega
        have e2 : j = k := by omega
        subst e1 e2
        funext s t
        rw [Subsingleton.elim s 0, Subsingleton.elim t 0, h0]
        rfl
      · rfl
    rw [hdiag, hrem, add_zero, add_zero] at h1
    rw [h1, blk_sum_apply]
    apply Finset.sum_congr rfl
    intro m _
    rw [Matrix.mul_apply]
    simp [U]
  have := hA z (fun r hr => by
    have h1 : ∀ c ∈ Finset.range (k + 1), A r c 0 0 * z c = ∑ m ∈ Finset.range k, lowerF M r m 0 0 * (U m c * z c) := by
      intro c hc
      rw [hfac r c hr (Finset.mem_range.mp hc), Finset.sum_mul]
      exact Finset.sum_congr rfl fun m _ => by ring
    rw [Finset.sum_congr rfl h1, Finset.sum_comm]
    apply Finset.sum_eq_zero
    intro m hm
    rw [← Finset.mul_sum, hz' m (by omega) (Finset.mem_range.mp hm), mul_zero]) k (by omega)
  rw [hz] at this
  exact one_ne_zero this

end PGM.Lu
