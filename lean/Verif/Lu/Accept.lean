import Verif.Lu.Props

/-!
# C16: which block systems are accepted
-/

namespace PGM.Lu

variable {K : Type} [RCLike K] {n N : Nat} {p : Pattern} {pat : Nat → Nat → Prop}

/-- `B` is what is left of the diagonal block `k` of `A` after the elimination of the unknowns before it: for every vector that meets the equations
before `k`, the first `k + 1` terms of equation `k` are `B` times component `k`. -/
def IsPivotBlock (A : Nat → Nat → Blk K n) (k : Nat) (B : Blk K n) : Prop :=
  ∀ z : Nat → Fin n → K, (∀ r, r < k → ∑ c ∈ Finset.range (k + 1), (A r c).mulVec (z c) = 0) →
    ∑ c ∈ Finset.range (k + 1), (A k c).mulVec (z c) = B.mulVec (z k)

theorem rows_mulVec (q : Equiv.Perm (Fin n)) (A : Blk K n) (v : Fin n → K) : (permRows q A).mulVec v = permVec q (A.mulVec v) := rfl

theorem cols_mulVec (q : Equiv.Perm (Fin n)) (A : Blk K n) (v : Fin n → K) : (permCols A q).mulVec (fun i => v (q i)) = A.mulVec v := by
  funext t
  unfold Matrix.mulVec dotProduct permCols
  exact Equiv.sum_comp q fun j => A t j * v j

/-- The vector in the order of the pivots. -/
def ordered (bps : Nat → BlockPerm n) (k : Nat) (z : Nat → Fin n → K) (c : Nat) : Fin n → K := if c < k then fun i => z c ((bps c).q i) else z c

/-- The right-hand side in the order of the pivots. -/
def orderedRow (bps : Nat → BlockPerm n) (k i : Nat) (v : Fin n → K) : Fin n → K := if i < k then permVec (bps i).p v else v

theorem permuted_ordered (bps : Nat → BlockPerm n) (k : Nat) (A : Nat → Nat → Blk K n) (z : Nat → Fin n → K) (i j : Nat) :
    (permuted bps k A i j).mulVec (ordered bps k z j) = orderedRow bps k i ((A i j).mulVec (z j)) := by
  unfold permuted ordered orderedRow
  simp only
  by_cases hj : j < k
  · rw [if_pos hj, if_pos hj, cols_mulVec]
    split_ifs
    · rw [rows_mulVec]
    · rfl
  · rw [if_neg hj, if_neg hj]
    split_ifs
    · rw [rows_mulVec]
    · rfl

theorem orderedRow_sum (bps : Nat → BlockPerm n) (k i : Nat) (s : Finset Nat) (f : Nat → Fin n → K) :
    orderedRow bps k i (∑ c ∈ s, f c) = ∑ c ∈ s, orderedRow bps k i (f c) := by
  unfold orderedRow
  split_ifs
  · exact permVec_sum _ _ _
  · rfl

/-- The diagonal block that the factorisation meets at pivot `k`. -/
theorem pivot_block {A M : Nat → Nat → Blk K n} {st : LuState K n} {bps : Nat → BlockPerm n} {e : Nat → Fin n → K} {k : Nat}
    (I : LuInv p N pat 0 A k st M bps e) : IsPivotBlock A k (M k k) := by
  intro z hz
  have he : ∀ r, e r = 0 := fun r => by
    funext t
    exact norm_le_zero_iff.mp (I.small r t)
  set W := ordered bps k z with hW
  let Y : Nat → Fin n → K := fun m => ∑ c ∈ Finset.range (k + 1), (upperF M m c).mulVec (W c)
  have hWk : W k = z k := by rw [hW]; unfold ordered; rw [if_neg (Nat.lt_irrefl k)]
  have key : ∀ r, orderedRow bps k r (∑ c ∈ Finset.range (k + 1), (A r c).mulVec (z c)) =
      ∑ m ∈ Finset.range k, (lowerF M r m).mulVec (Y m) + ∑ c ∈ Finset.range (k + 1), (remains M k r c).mulVec (W c) := by
    intro r
    rw [orderedRow_sum]
    have h1 : ∀ c ∈ Finset.range (k + 1), orderedRow bps k r ((A r c).mulVec (z c)) =
        ∑ m ∈ Finset.range k, (lowerF M r m).mulVec ((upperF M m c).mulVec (W c)) + (remains M k r c).mulVec (W c) := by
      intro c _
      rw [← permuted_ordered]
      have hf := I.factor r c
      have hd : (if r = c ∧ r < k then Matrix.diagonal (e r) else 0 : Blk K n) = 0 := by
        rw [he r]
        split_ifs <;> simp
      rw [hd, add_zero] at hf
      rw [hf, Matrix.add_mulVec, sum_mulVec]
      congr 1
      exact Finset.sum_congr rfl fun m _ => (Matrix.mulVec_mulVec _ _ _).symm
    rw [Finset.sum_congr rfl h1, Finset.sum_add_distrib, Finset.sum_comm]
    congr 1
    apply Finset.sum_congr rfl
    intro m _
    rw [mulVec_sum]
  have hY : ∀ m, m < k → Y m = 0 := by
    intro m
    induction m using Nat.strong_induction_on with
    | _ m ih =>
      intro hm
      have h1 := key m
      rw [hz m hm] at h1
      have h2 : ∑ c ∈ Finset.range (k + 1), (remains M k m c).mulVec (W c) = 0 := by
        apply Finset.sum_eq_zero
        intro c _
        unfold remains
        rw [if_neg (by omega), Matrix.zero_mulVec]
      rw [h2, add_zero, Finset.sum_eq_single_of_mem m (Finset.mem_range.mpr hm)] at h1
      · have h3 : lowerF M m m = lowerUnit (M m m) := by unfold lowerF; rw [if_neg (Nat.lt_irrefl m), if_pos rfl]
        rw [h3] at h1
        refine lowerUnit_injective (M m m) _ (h1.symm.trans ?_)
        unfold orderedRow
        split_ifs <;> rfl
      · intro c hc hcm
        rcases lt_or_gt_of_ne hcm with h | h
        · rw [ih c h (Finset.mem_range.mp hc), Matrix.mulVec_zero]
        · unfold lowerF
          rw [if_neg (by omega), if_neg hcm, Matrix.zero_mulVec]
  have h1 := key k
  have h2 : ∑ m ∈ Finset.range k, (lowerF M k m).mulVec (Y m) = 0 :=
    Finset.sum_eq_zero fun m hm => by rw [hY m (Finset.mem_range.mp hm), Matrix.mulVec_zero]
  have h3 : ∑ c ∈ Finset.range (k + 1), (remains M k k c).mulVec (W c) = (M k k).mulVec (z k) := by
    rw [Finset.sum_eq_single_of_mem k (Finset.mem_range.mpr (by omega))]
    · unfold remains
      rw [if_pos ⟨le_rfl, le_rfl⟩, hWk]
    · intro c hc hck
      have := Finset.mem_range.mp hc
      unfold remains
      rw [if_neg (by omega), Matrix.zero_mulVec]
  rw [h2, zero_add, h3] at h1
  unfold orderedRow at h1
  rw [if_neg (Nat.lt_irrefl k)] at h1
  exact h1

/-- **C16, which block systems are accepted.** Without perturbation the factorisation succeeds if every pivot block, that is, the diagonal block that is
left when the unknowns before it are eliminated, is accepted by the dense factorisation. -/
theorem block_accepted (hv : p.Valid N pat) (A : Nat → Nat → Blk K n) (data : List (Blk K n)) (perms : List (BlockPerm n))
    (hA : Holds p N pat data A) (hlen : perms.length = N)
    (h : ∀ k, k < N → ∀ B, IsPivotBlock A k B → ∀ flag, factorizeBlock 0 false B flag ≠ none) :
    ∃ f, prefactorize p false data perms = .ok f := by
  have hthr : threshold p false data = 0 := by simp [threshold]
  have hz := hA.zero
  have hrep := hA.rep
  have := foldlM_range_induct (pivotAt p (threshold p false data) false)
    (fun k st => ∃ M bps e, LuInv p N pat 0 A k st M bps e) N ⟨data, p.rowIndptr.dropLast, perms, false⟩
    ⟨A, fun _ => ⟨1, 1⟩, fun _ => 0, hrep, hz, cpos_init hv, hlen, fun r hr => absurd hr (Nat.not_lt_zero r),
      fun r hr => absurd hr (Nat.not_lt_zero r), fun r t => by simp, fun _ _ => rfl, fun i j => by simp [permuted, remains]⟩
    (fun k st hk hI => by
      obtain ⟨M, bps, e, I⟩ := hI
      rw [hthr]
      rcases lu_step hv le_rfl false hk I with h1 | ⟨st', h1, h'⟩
      · exfalso
        rcases pivot_step hv hk 0 false M st I.zero I.rep I.pos I.permLen with ⟨h2, _⟩ | ⟨_, _, _, _, _, h2, _⟩
        · exact h k hk _ (pivot_block I) _ h2
        · rw [h1] at h2; exact absurd h2 (by simp)
      · exact ⟨st', h1, h'⟩)
  obtain ⟨st, h1, _⟩ := this
  refine ⟨⟨st.data, st.perms, st.flag⟩, ?_⟩
  unfold prefactorize
  rw [hv.size_eq, h1]
  rfl

/-! ## Blocks of two -/

/-- `A` after the exchange of rows and columns for the first pivot. -/
theorem first_two (A : Blk K 2) (flag : Bool) (h : A (biggest A 0).1 (biggest A 0).2 ≠ 0) :
    pivotStep 0 false ⟨A, id, id, 0, flag, false⟩ (0 : Fin 2) =
      ⟨eliminate (fun i j => A (Equiv.swap 0 (biggest A 0).1 i) (Equiv.swap 0 (biggest A 0).2 j)) 0,
        Function.update id 0 (biggest A 0).1, Function.update id 0 (biggest A 0).2, max 0 ‖A (biggest A 0).1 (biggest A 0).2‖, flag, false⟩ := by
  have hset : setEntry A (biggest A 0).1 (biggest A 0).2 (A (biggest A 0).1 (biggest A 0).2) = A := by
    funext i j
    unfold setEntry
    split_ifs with h
    · rw [h.1, h.2]
    · rfl
  unfold pivotStep
  simp only
  rw [if_neg]
  · unfold perturb
    rw [if_neg (by simp)]
    simp only [hset]
  · simp [h]

theorem second_two (st : Fact K 2) (hs : st.stopped = false) (h : st.mat 1 1 ≠ 0) :
    (pivotStep 0 false st (1 : Fin 2)).mat = st.mat ∧ (pivotStep 0 false st (1 : Fin 2)).flag = st.flag ∧
      (pivotStep 0 false st (1 : Fin 2)).maxPivot = max st.maxPivot ‖st.mat 1 1‖ := by
  have hb : biggest st.mat (1 : Fin 2) = (1, 1) := by
    obtain ⟨h1, h2, _⟩ := biggest_spec st.mat (1 : Fin 2)
    have key : ∀ x : Fin 2, 1 ≤ x → x = 1 := by decide
    exact Prod.ext (key _ h1) (key _ h2)
  have hset : setEntry st.mat 1 1 (st.mat 1 1) = st.mat := by
    funext i j
    unfold setEntry
    split_ifs with h
    · rw [h.1, h.2]
    · rfl
  unfold pivotStep
  simp only [hb]
  rw [if_neg]
  · unfold perturb
    rw [if_neg (by simp)]
    simp only [hset, Equiv.swap_self, Equiv.refl_apply]
    refine ⟨?_, trivial, trivial⟩
    funext i j
    unfold eliminate
    have key : ∀ x : Fin 2, ¬ 1 < x := by decide
    simp [key]
  · simp [hs, h]

theorem machineEps_pos : 0 < machineEps := by unfold machineEps; positivity

theorem machineEps_small : machineEps ≤ 1 / 2 := by unfold machineEps; norm_num

/-- **Blocks of two by two.** A block is accepted if its determinant is not small compared with the square of its largest entry. -/
theorem factorize_two (A : Blk K 2) (flag : Bool) (m : ℝ) (hm : ∀ i j, ‖A i j‖ ≤ m) (hdet : A 0 0 * A 1 1 - A 0 1 * A 1 0 ≠ 0)
    (h : machineEps * m ^ 2 ≤ ‖A 0 0 * A 1 1 - A 0 1 * A 1 0‖) : factorizeBlock 0 false A flag ≠ none := by
  obtain ⟨_, _, hmax⟩ := biggest_spec A (0 : Fin 2)
  set b := biggest A (0 : Fin 2) with hb
  have hall : ∀ i j, ‖A i j‖ ≤ ‖A b.1 b.2‖ := fun i j => hmax i j (Fin.zero_le i) (Fin.zero_le j)
  have hv : A b.1 b.2 ≠ 0 := by
    intro h0
    have hz : ∀ i j, A i j = 0 := fun i j => by
      have := hall i j
      rw [h0, norm_zero] at this
      exact norm_le_zero_iff.mp this
    exact hdet (by rw [hz 0 0, hz 0 1]; simp)
  set C : Blk K 2 := fun i j => A (Equiv.swap 0 b.1 i) (Equiv.swap 0 b.2 j) with hC
  have hC0 : C 0 0 = A b.1 b.2 := by simp [hC]
  have hdC : ‖C 0 0 * C 1 1 - C 0 1 * C 1 0‖ = ‖A 0 0 * A 1 1 - A 0 1 * A 1 0‖ := by
    have key : ∀ x y : Fin 2, ‖A (Equiv.swap 0 x 0) (Equiv.swap 0 y 0) * A (Equiv.swap 0 x 1) (Equiv.swap 0 y 1) -
        A (Equiv.swap 0 x 0) (Equiv.swap 0 y 1) * A (Equiv.swap 0 x 1) (Equiv.swap 0 y 0)‖ = ‖A 0 0 * A 1 1 - A 0 1 * A 1 0‖ := by
      have hs1 : Equiv.swap (0 : Fin 2) 1 1 = 0 := Equiv.swap_apply_right _ _
      have hs0 : Equiv.swap (0 : Fin 2) 1 0 = 1 := Equiv.swap_apply_left _ _
      intro x y
      fin_cases x <;> fin_cases y <;> simp only [Fin.zero_eta, Fin.mk_one, Equiv.swap_self, Equiv.refl_apply, hs0, hs1]
      · rw [norm_sub_rev]
      · rw [norm_sub_rev, mul_comm (A 1 1), mul_comm (A 1 0)]
      · congr 1
        ring
    exact key b.1 b.2
  set E := eliminate C 0 with hE
  have hE0 : E 0 0 = A b.1 b.2 := by rw [hE, ← hC0]; unfold eliminate; simp
  have hE1 : E 1 1 = C 1 1 - C 1 0 / C 0 0 * C 0 1 := by rw [hE]; unfold eliminate; simp
  have hprod : ‖A b.1 b.2‖ * ‖E 1 1‖ = ‖A 0 0 * A 1 1 - A 0 1 * A 1 0‖ := by
    rw [← hdC, ← norm_mul, hE1, ← hC0]
    congr 1
    have : C 0 0 ≠ 0 := by rw [hC0]; exact hv
    field_simp
  have hvpos : 0 < ‖A b.1 b.2‖ := norm_pos_iff.mpr hv
  have hE1ne : E 1 1 ≠ 0 := by
    intro h0
    rw [h0, norm_zero, mul_zero] at hprod
    exact hdet (norm_eq_zero.mp hprod.symm)
  have hE1le : ‖E 1 1‖ ≤ 2 * ‖A b.1 b.2‖ := by
    have h1 : ‖C 1 1‖ ≤ ‖A b.1 b.2‖ := hall _ _
    have h2 : ‖C 1 0 / C 0 0 * C 0 1‖ ≤ ‖A b.1 b.2‖ := by
      rw [norm_mul, norm_div, hC0]
      have h3 : ‖C 1 0‖ / ‖A b.1 b.2‖ ≤ 1 := (div_le_one hvpos).mpr (hall _ _)
      calc ‖C 1 0‖ / ‖A b.1 b.2‖ * ‖C 0 1‖ ≤ 1 * ‖A b.1 b.2‖ := mul_le_mul h3 (hall _ _) (norm_nonneg _) (by norm_num)
        _ = _ := one_mul _
    rw [hE1]
    calc ‖C 1 1 - C 1 0 / C 0 0 * C 0 1‖ ≤ ‖C 1 1‖ + ‖C 1 0 / C 0 0 * C 0 1‖ := norm_sub_le _ _
      _ ≤ _ := by linarith
  have hloop : pivotLoop 0 false A flag = pivotStep 0 false (pivotStep 0 false ⟨A, id, id, 0, flag, false⟩ 0) 1 := by
    unfold pivotLoop
    rw [show List.finRange 2 = [0, 1] from rfl]
    rfl
  rw [first_two A flag (by rw [← hb]; exact hv), ← hb] at hloop
  obtain ⟨l1, l2, l3⟩ := second_two ⟨eliminate C 0, Function.update id 0 b.1, Function.update id 0 b.2, max 0 ‖A b.1 b.2‖, flag, false⟩ rfl hE1ne
  rw [← hloop] at l1 l2 l3
  simp only at l1 l2 l3
  have heps := machineEps_pos
  have heps' := machineEps_small
  unfold factorizeBlock
  simp only
  rw [← hE] at l1 l3
  rw [l1, l2, l3, if_neg]
  · simp
  · rintro ⟨k, hk⟩
    have hmp : max (max 0 ‖A b.1 b.2‖) ‖E 1 1‖ ≤ 2 * ‖A b.1 b.2‖ := max_le (max_le (by positivity) (by linarith)) hE1le
    have hmp0 : 0 ≤ max (max 0 ‖A b.1 b.2‖) ‖E 1 1‖ := le_trans (le_max_left _ _) (le_max_left _ _)
    fin_cases k
    · rcases hk with hk | hk
      · simp only [Fin.zero_eta] at hk
        rw [hE0] at hk
        split_ifs at hk
        · linarith
        · have : machineEps * max (max 0 ‖A b.1 b.2‖) ‖E 1 1‖ ≤ 1 / 2 * (2 * ‖A b.1 b.2‖) := mul_le_mul heps' hmp hmp0 (by norm_num)
          linarith
      · simp only [Fin.zero_eta] at hk
        exact hv (hE0.symm.trans hk)
    · rcases hk with hk | hk
      · simp only [Fin.mk_one] at hk
        split_ifs at hk
        · have := norm_nonneg (E 1 1)
          linarith
        · rcases max_cases (max 0 ‖A b.1 b.2‖) ‖E 1 1‖ with ⟨e, _⟩ | ⟨e, _⟩
          · rw [e, max_eq_right hvpos.le] at hk
            have h1 : machineEps * ‖A b.1 b.2‖ * ‖A b.1 b.2‖ ≤ ‖A b.1 b.2‖ * ‖E 1 1‖ := by
              rw [hprod]
              refine le_trans ?_ h
              have : ‖A b.1 b.2‖ ^ 2 ≤ m ^ 2 := pow_le_pow_left₀ hvpos.le (hm _ _) 2
              nlinarith
            nlinarith
          · rw [e] at hk
            have := norm_nonneg (E 1 1)
            nlinarith
      · exact hE1ne hk

end PGM.Lu
