import Verif.Lu.Solve

/-!
# Lemmas: unique solutions, flags, and iterative refinement
-/

namespace PGM.Lu

variable {K : Type} [RCLike K] {n : Nat} {p : Pattern} {N : Nat} {pat : Nat → Nat → Prop}

/-! ## Without a threshold nothing is perturbed -/

theorem pivotLoop_flag (use : Bool) (A : Blk K n) (flag : Bool) : (pivotLoop 0 use A flag).flag = flag := by
  unfold pivotLoop
  refine foldl_take_induct (pivotStep 0 use) _ (fun _ st => st.flag = flag) rfl (fun k st h => ?_)
  unfold pivotStep
  simp only
  split_ifs
  · exact h
  · simp only [perturb]
    rw [if_neg (not_lt.mpr (norm_nonneg _))]
    exact h

theorem factorizeBlock_flag (use : Bool) (A : Blk K n) (flag : Bool) {lu : Blk K n} {bp : BlockPerm n} {flag' : Bool}
    (h : factorizeBlock 0 use A flag = some (lu, bp, flag')) : flag' = flag := by
  unfold factorizeBlock at h
  simp only at h
  have hp := pivotLoop_flag use A flag
  split_ifs at h <;>
  · injection h with h
    injection h with _ h
    injection h with _ h
    rw [← h]
    exact hp

theorem prefactorize_flag (hv : p.Valid N pat) (A : Nat → Nat → Blk K n) (data : List (Blk K n)) (perms : List (BlockPerm n))
    (hz : ZeroOut N pat A) (hrep : Rep p N data A) (hlen : perms.length = N) (f : Factors K n) (h : prefactorize p false data perms = .ok f) :
    f.perturbed = false := by
  have hthr : threshold p false data = 0 := by simp [threshold]
  have := foldlM_range_good (pivotAt p (threshold p false data) false)
    (fun k st => (∃ M bps e, LuInv p N pat (threshold p false data) A k st M bps e) ∧ st.flag = false) N ⟨data, p.rowIndptr.dropLast, perms, false⟩
    ⟨⟨A, fun _ => ⟨1, 1⟩, fun _ => 0, hrep, hz, cpos_init hv, hlen, fun r hr => absurd hr (Nat.not_lt_zero r),
      fun r hr => absurd hr (Nat.not_lt_zero r), fun r t => by simp [hthr], fun _ _ => rfl, fun i j => by simp [permuted, remains]⟩, rfl⟩
    (fun k st hk hI => by
      obtain ⟨⟨M, bps, e, I⟩, hfl⟩ := hI
      rcases lu_step hv (by rw [hthr]) false hk I with h | ⟨st', h, h'⟩
      · exact Or.inl h
      · refine Or.inr ⟨st', h, h', ?_⟩
        rcases pivot_step hv hk (threshold p false data) false M st I.zero I.rep I.pos I.permLen with
          ⟨_, h2⟩ | ⟨lu, bp, flag, st2, hf, h2, _, _, _, _, hF⟩
        · rw [h] at h2; exact absurd h2 (by simp)
        · rw [h] at h2
          injection h2 with h2
          rw [hthr] at hf
          rw [h2, hF, factorizeBlock_flag false _ _ hf, hfl])
  unfold prefactorize at h
  rw [hv.size_eq] at h
  rcases this with h1 | ⟨st, h1, _, hfl⟩
  · rw [h1] at h; exact absurd h (by simp [bind, Except.bind])
  · rw [h1] at h
    simp only [bind, Except.bind] at h
    injection h with h
    rw [← h]
    exact hfl

/-! ## The factors are injective -/

theorem factors_injective {A M : Nat → Nat → Blk K n} {bps : Nat → BlockPerm n} {e : Nat → Fin n → K}
    (hfac : ∀ i j, permuted bps N A i j + (if i = j ∧ i < N then Matrix.diagonal (e i) else 0) =
      (∑ m ∈ Finset.range N, lowerF M i m * upperF M m j) + remains M N i j)
    (hd : ∀ r, r < N → ∀ t, M r r t t ≠ 0) (W : Nat → Fin n → K)
    (h : ∀ r, r < N → (∑ c ∈ Finset.range N, (A r c).mulVec (permVec (bps c).q (W c))) +
      (blockE (bps r) (e r)).mulVec (permVec (bps r).q (W r)) = 0) : ∀ r, r < N → W r = 0 := by
  -- the images under the upper factor
  let Y : Nat → Fin n → K := fun m => ∑ c ∈ Finset.range N, (upperF M m c).mulVec (W c)
  have hLY : ∀ r, r < N → ∑ m ∈ Finset.range N, (lowerF M r m).mulVec (Y m) = 0 := by
    intro r hr
    have h0 : permVec (bps r).p ((∑ c ∈ Finset.range N, (A r c).mulVec (permVec (bps c).q (W c))) +
      (blockE (bps r) (e r)).mulVec (permVec (bps r).q (W r))) = 0 := by rw [h r hr]; rfl
    have hadd : ∀ a b : Fin n → K, permVec (bps r).p (a + b) = permVec (bps r).p a + permVec (bps r).p b := fun _ _ => rfl
    rw [hadd, permVec_sum, blockE_mulVec] at h0
    rw [← h0]
    have hP : ∀ c ∈ Finset.range N, permVec (bps r).p ((A r c).mulVec (permVec (bps c).q (W c))) = (permuted bps N A r c).mulVec (W c) := by
      intro c hc
      have := Finset.mem_range.mp hc
      unfold permuted
      simp only [hr, this, if_true]
      exact (permuted_mulVec (bps r).p (bps c).q (A r c) (W c)).symm
    rw [Finset.sum_congr rfl hP]
    have hdiag : (Matrix.diagonal (e r)).mulVec (W r) =
        ∑ c ∈ Finset.range N, (if r = c ∧ r < N then Matrix.diagonal (e r) else 0 : Blk K n).mulVec (W c) := by
      rw [Finset.sum_eq_single r]
      · simp [hr]
      · intro c _ hc
        rw [if_neg (by tauto), Matrix.zero_mulVec]
      · intro h; exact absurd (Finset.mem_range.mpr hr) h
    rw [hdiag, ← Finset.sum_add_distrib]
    have hstep : ∀ c ∈ Finset.range N, (permuted bps N A r c).mulVec (W c) + (if r = c ∧ r < N then Matrix.diagonal (e r) else 0 : Blk K n).mulVec (W c) =
        ∑ m ∈ Finset.range N, (lowerF M r m).mulVec ((upperF M m c).mulVec (W c)) := by
      intro c hc
      have hrem : remains M N r c = 0 := by unfold remains; rw [if_neg (by omega)]
      rw [← Matrix.add_mulVec, hfac r c, hrem, add_zero, sum_mulVec]
      apply Finset.sum_congr rfl
      intro m _
      rw [Matrix.mulVec_mulVec]
    rw [Finset.sum_congr rfl hstep, Finset.sum_comm]
    apply Finset.sum_congr rfl
    intro m _
    exact mulVec_sum _ _ _
  have hY : ∀ r, r < N → Y r = 0 := by
    intro r
    induction r using Nat.strong_induction_on with
    | _ r ih =>
      intro hr
      have h1 := hLY r hr
      rw [Finset.sum_eq_single r] at h1
      · apply lowerUnit_injective (M r r)
        simpa [lowerF] using h1
      · intro m hm hmr
        have := Finset.mem_range.mp hm
        rcases Nat.lt_or_gt_of_ne hmr with hlt | hgt
        · rw [ih m hlt this, Matrix.mulVec_zero]
        · rw [show lowerF M r m = 0 by unfold lowerF; rw [if_neg (by omega), if_neg (by omega)], Matrix.zero_mulVec]
      · intro hn; exact absurd (Finset.mem_range.mpr hr) hn
  have hW : ∀ d r, r + d + 1 = N → W r = 0 := by
    intro d
    induction d using Nat.strong_induction_on with
    | _ d ih =>
      intro r hr
      have h1 := hY r (by omega)
      simp only [Y] at h1
      rw [Finset.sum_eq_single r] at h1
      · apply upper_injective (M r r) (hd r (by omega))
        simpa [upperF] using h1
      · intro c hc hcr
        have := Finset.mem_range.mp hc
        rcases Nat.lt_or_gt_of_ne hcr with hlt | hgt
        · rw [show upperF M r c = 0 by unfold upperF; rw [if_neg (by omega), if_neg (by omega)], Matrix.zero_mulVec]
        · rw [ih (N - c - 1) (by omega) c (by omega), Matrix.mulVec_zero]
      · intro hn; exact absurd (Finset.mem_range.mpr (by omega)) hn
  intro r hr
  exact hW (N - r - 1) r (by omega)

/-! ## One solve -/

theorem solveOnce_ok (hv : p.Valid N pat) {thr : ℝ} {A M : Nat → Nat → Blk K n} {st : LuState K n} {bps : Nat → BlockPerm n} {e : Nat → Fin n → K}
    (I : LuInv p N pat thr A N st M bps e) (rhs : Option (List (Fin n → K))) (x : List (Fin n → K)) (B X : Nat → Fin n → K)
    (hx : VRep N x X) (hB : VRep N (rhs.getD x) B) :
    ∃ y Y, solveOnce p ⟨st.data, st.perms, st.flag⟩ rhs x = .ok y ∧ VRep N y Y ∧
      ∀ r, r < N → (∑ c ∈ Finset.range N, (A r c).mulVec (Y c)) + (blockE (bps r) (e r)).mulVec (Y r) = B r := by
  obtain ⟨x1, X1, e1, v1, f1⟩ := forward_loop hv (f := ⟨st.data, st.perms, st.flag⟩) I.rep I.zero I.perms rhs x B X hx hB
  obtain ⟨x2, X2, e2, v2, f2⟩ := backward_loop hv (f := ⟨st.data, st.perms, st.flag⟩) I.rep I.zero I.diag x1 X1 v1
  obtain ⟨x3, e3, v3⟩ := restore_loop (f := ⟨st.data, st.perms, st.flag⟩) I.perms x2 X2 v2
  refine ⟨x3, _, ?_, v3, factors_solve I.factor f1 f2⟩
  unfold solveOnce
  rw [hv.size_eq, e1]
  simp only [bind, Except.bind]
  rw [e2]
  exact e3

/-! ## Rows of the original matrix -/

theorem fullCols_spec (hv : p.Valid N pat) {r : Nat} (hr : r < N) :
    ((idxRange (p.start r) (p.start (r + 1))).map p.col).Pairwise (· < ·) ∧
      ∀ c, c ∈ (idxRange (p.start r) (p.start (r + 1))).map p.col ↔ pat r c := by
  obtain ⟨h1, h2⟩ := cols_range hv hr (a := p.start r) (z := p.start (r + 1)) le_rfl le_rfl
  refine ⟨h1, fun c => (h2 c).trans ⟨?_, ?_⟩⟩
  · rintro ⟨i, hi, _⟩; exact at_pat hv hr hi
  · intro hp
    obtain ⟨i, hi⟩ := at_exists hv hr hp
    exact ⟨i, hi, (at_bounds hv hi).1, (at_bounds hv hi).2.1⟩

theorem full_sum (hv : p.Valid N pat) {V : Type} [AddCommMonoid V] {r : Nat} (hr : r < N) (F : Nat → V)
    (hF : ∀ c, c < N → ¬ pat r c → F c = 0) :
    (((idxRange (p.start r) (p.start (r + 1))).map p.col).map F).sum = ∑ c ∈ Finset.range N, F c := by
  obtain ⟨h1, h2⟩ := fullCols_spec hv hr
  refine sum_cols _ (h1.imp fun h => Nat.ne_of_lt h) _ _ (fun c hc => Finset.mem_range.mpr (hv.range r c hr ((h2 c).mp hc)))
    (fun c hc hn => hF c (Finset.mem_range.mp hc) (fun hp => hn ((h2 c).mpr hp)))

theorem residualRow_ok (hv : p.Valid N pat) {A : Nat → Nat → Blk K n} {orig : List (Blk K n)} (R : Rep p N orig A) (Z : ZeroOut N pat A)
    {rhs x : List (Fin n → K)} {B X : Nat → Fin n → K} (hB : VRep N rhs B) (hx : VRep N x X) {r : Nat} (hr : r < N) :
    residualRow p orig rhs x r = .ok (B r - ∑ c ∈ Finset.range N, (A r c).mulVec (X c)) := by
  unfold residualRow
  rw [vrep_rd hB hr]
  simp only [bind, Except.bind]
  rw [entry_loop hv R hr hx (residualEntry p orig x) _ (fun i hi => by rw [mem_idxRange] at hi; exact hi) (fun acc i hi => rfl) (B r)]
  rw [full_sum hv hr (fun c => (A r c).mulVec (X c)) (fun c hc hp => by rw [Z r c hr hc hp, Matrix.zero_mulVec])]

theorem mapM_ok {α β : Type} (g : α → Except Err β) (v : α → β) (l : List α) (h : ∀ a ∈ l, g a = .ok (v a)) : l.mapM g = .ok (l.map v) := by
  induction l with
  | nil => rfl
  | cons a l ih =>
    rw [List.mapM_cons, h a (by simp)]
    simp only [bind, Except.bind]
    rw [ih (fun b hb => h b (by simp [hb]))]
    rfl

theorem vrep_range (X : Nat → Fin n → K) : VRep N ((List.range N).map X) X :=
  ⟨by simp, fun r hr => by simp [hr]⟩

theorem residual_ok (hv : p.Valid N pat) {A : Nat → Nat → Blk K n} {orig : List (Blk K n)} (R : Rep p N orig A) (Z : ZeroOut N pat A)
    {rhs x : List (Fin n → K)} {B X : Nat → Fin n → K} (hB : VRep N rhs B) (hx : VRep N x X) :
    ∃ res, residual p orig rhs x = .ok res ∧ VRep N res (fun r => B r - ∑ c ∈ Finset.range N, (A r c).mulVec (X c)) := by
  refine ⟨_, ?_, vrep_range _⟩
  unfold residual
  rw [hv.size_eq]
  exact mapM_ok _ _ _ (fun r hr => residualRow_ok hv R Z hB hx (List.mem_range.mp hr))

/-- The denominator of an equation. -/
noncomputable def denom (N : Nat) (A : Nat → Nat → Blk K n) (B X : Nat → Fin n → K) (r : Nat) (t : Fin n) : ℝ :=
  ‖B r t‖ + ∑ c ∈ Finset.range N, ∑ s, ‖A r c t s‖ * ‖X c s‖

theorem denominatorRow_ok (hv : p.Valid N pat) {A : Nat → Nat → Blk K n} {orig : List (Blk K n)} (R : Rep p N orig A) (Z : ZeroOut N pat A)
    {rhs x : List (Fin n → K)} {B X : Nat → Fin n → K} (hB : VRep N rhs B) (hx : VRep N x X) {r : Nat} (hr : r < N) :
    denominatorRow p orig rhs x r = .ok (denom N A B X r) := by
  unfold denominatorRow
  rw [vrep_rd hB hr]
  simp only [bind, Except.bind]
  have key : ∀ (l : List Nat) (acc : Fin n → ℝ), (∀ i ∈ l, p.start r ≤ i ∧ i < p.start (r + 1)) →
      l.foldlM (denominatorEntry p orig x) acc =
        .ok (acc + ((l.map p.col).map fun c => fun t => ∑ s, ‖A r c t s‖ * ‖X c s‖).sum) := by
    intro l
    induction l with
    | nil => intro acc _; simp [pure, Except.pure]
    | cons i l ih =>
      intro acc hl
      have hi := hl i (by simp)
      obtain ⟨hat, hpat⟩ := at_of_bounds hv hr hi.1 hi.2
      rw [List.foldlM_cons]
      have : denominatorEntry p orig x acc i = .ok (acc + fun t => ∑ s, ‖A r (p.col i) t s‖ * ‖X (p.col i) s‖) := by
        unfold denominatorEntry
        rw [rep_rd R hr hat]
        simp only [bind, Except.bind]
        rw [vrep_rd hx (hv.range r _ hr hpat)]
        rfl
      rw [this]
      simp only [bind, Except.bind]
      rw [ih _ (fun j hj => hl j (by simp [hj]))]
      simp [add_assoc]
  rw [key _ _ (fun i hi => by rw [mem_idxRange] at hi; exact hi)]
  rw [full_sum hv hr (fun c => fun t => ∑ s, ‖A r c t s‖ * ‖X c s‖) (fun c hc hp => by funext t; simp [Z r c hr hc hp])]
  congr 1
  funext t
  simp [denom, Finset.sum_apply]

/-! ## Maxima -/

theorem maxVal_ge (m : ℝ) (v : Fin n → ℝ) : m ≤ maxVal m v ∧ ∀ t, v t ≤ maxVal m v := by
  have key : ∀ (l : List (Fin n)) (m : ℝ), m ≤ l.foldl (fun m t => max m (v t)) m ∧ ∀ t ∈ l, v t ≤ l.foldl (fun m t => max m (v t)) m := by
    intro l
    induction l with
    | nil => intro m; simp
    | cons a l ih =>
      intro m
      obtain ⟨h1, h2⟩ := ih (max m (v a))
      refine ⟨(le_max_left _ _).trans h1, fun t ht => ?_⟩
      rcases List.mem_cons.mp ht with rfl | ht
      · exact (le_max_right _ _).trans h1
      · exact h2 t ht
  exact ⟨(key _ m).1, fun t => (key _ m).2 t (List.mem_finRange t)⟩

theorem maxVal_le (m b : ℝ) (v : Fin n → ℝ) (h1 : m ≤ b) (h2 : ∀ t, v t ≤ b) : maxVal m v ≤ b := by
  unfold maxVal
  generalize List.finRange n = l
  induction l generalizing m with
  | nil => exact h1
  | cons a l ih => exact ih _ (max_le h1 (h2 a))

theorem maxFold_ge {α : Type} (g : α → Fin n → ℝ) (l : List α) (m : ℝ) :
    m ≤ l.foldl (fun m a => maxVal m (g a)) m ∧ ∀ a ∈ l, ∀ t, g a t ≤ l.foldl (fun m a => maxVal m (g a)) m := by
  induction l generalizing m with
  | nil => simp
  | cons a l ih =>
    obtain ⟨h1, h2⟩ := ih (maxVal m (g a))
    have := maxVal_ge m (g a)
    refine ⟨this.1.trans h1, fun b hb t => ?_⟩
    rcases List.mem_cons.mp hb with rfl | hb
    · exact (this.2 t).trans h1
    · exact h2 b hb t

theorem maxFold_le {α : Type} (g : α → Fin n → ℝ) (l : List α) (m b : ℝ) (h1 : m ≤ b) (h2 : ∀ a ∈ l, ∀ t, g a t ≤ b) :
    l.foldl (fun m a => maxVal m (g a)) m ≤ b := by
  induction l generalizing m with
  | nil => exact h1
  | cons a l ih => exact ih _ (maxVal_le _ _ _ h1 (h2 a (by simp))) (fun c hc => h2 c (by simp [hc]))

theorem denom_nonneg (A : Nat → Nat → Blk K n) (B X : Nat → Fin n → K) (r : Nat) (t : Fin n) : 0 ≤ denom N A B X r t := by
  unfold denom
  exact add_nonneg (norm_nonneg _) (Finset.sum_nonneg fun c _ => Finset.sum_nonneg fun s _ => mul_nonneg (norm_nonneg _) (norm_nonneg _))

/-- The residual of an equation is not larger than its denominator. -/
theorem residual_le_denom (A : Nat → Nat → Blk K n) (B X : Nat → Fin n → K) (r : Nat) (t : Fin n) :
    ‖(B r - ∑ c ∈ Finset.range N, (A r c).mulVec (X c)) t‖ ≤ denom N A B X r t := by
  unfold denom
  rw [Pi.sub_apply, Finset.sum_apply]
  refine (norm_sub_le _ _).trans (add_le_add le_rfl ((norm_sum_le _ _).trans (Finset.sum_le_sum fun c _ => ?_)))
  show ‖∑ s, A r c t s * X c s‖ ≤ _
  refine (norm_sum_le _ _).trans (Finset.sum_le_sum fun s _ => ?_)
  rw [norm_mul]

theorem backwardError_ok (hv : p.Valid N pat) {A : Nat → Nat → Blk K n} {orig : List (Blk K n)} (R : Rep p N orig A) (Z : ZeroOut N pat A)
    {rhs x res : List (Fin n → K)} {B X : Nat → Fin n → K} (hB : VRep N rhs B) (hx : VRep N x X)
    (hres : VRep N res (fun r => B r - ∑ c ∈ Finset.range N, (A r c).mulVec (X c))) :
    ∃ b, backwardError p orig rhs res x = .ok b ∧ ∀ D : ℝ, 0 ≤ D → (∀ r, r < N → ∀ t, denom N A B X r t ≤ D) → ∀ r, r < N → ∀ t,
      ‖(B r - ∑ c ∈ Finset.range N, (A r c).mulVec (X c)) t‖ ≤ b * max (denom N A B X r t) ((1 / 10) ^ 4 * D) := by
  unfold backwardError
  rw [hv.size_eq, mapM_ok _ _ _ (fun r hr => denominatorRow_ok hv R Z hB hx (List.mem_range.mp hr))]
  simp only [bind, Except.bind]
  refine ⟨_, rfl, fun D hD hDle r hr t => ?_⟩
  set dens := (List.range N).map (denom N A B X) with hdens
  set cap := (1 / 10 : ℝ) ^ 4 * dens.foldl maxVal 0 with hcap
  have hge := (maxFold_ge (fun (rd : (Fin n → K) × (Fin n → ℝ)) t => ‖rd.1 t‖ / max (rd.2 t) cap) (res.zip dens) 0)
  set b := (res.zip dens).foldl (fun m rd => maxVal m fun t => ‖rd.1 t‖ / max (rd.2 t) cap) 0 with hb
  have hmem : ((B r - ∑ c ∈ Finset.range N, (A r c).mulVec (X c)), denom N A B X r) ∈ res.zip dens := by
    rw [List.mem_iff_getElem?]
    refine ⟨r, ?_⟩
    rw [List.getElem?_zip_eq_some]
    exact ⟨hres.val r hr, by rw [hdens]; simp [hr]⟩
  have h1 := hge.2 _ hmem t
  simp only at h1
  have hb0 : 0 ≤ b := hge.1
  have hcapD : cap ≤ (1 / 10) ^ 4 * D := by
    rw [hcap]
    refine mul_le_mul_of_nonneg_left ?_ (by positivity)
    have := maxFold_le (fun v : Fin n → ℝ => v) dens 0 D hD (fun v hv t => by
      rw [hdens, List.mem_map] at hv
      obtain ⟨r', hr', rfl⟩ := hv
      exact hDle r' (List.mem_range.mp hr') t)
    exact this
  have hden := denom_nonneg (N := N) A B X r t
  rcases lt_or_eq_of_le (show 0 ≤ max (denom N A B X r t) cap from le_max_of_le_left hden) with hpos | hzero
  · rw [div_le_iff₀ hpos] at h1
    refine h1.trans (mul_le_mul_of_nonneg_left ?_ hb0)
    exact max_le_max le_rfl hcapD
  · have hd0 : denom N A B X r t ≤ 0 := by
      have := le_max_left (denom N A B X r t) cap
      linarith
    have := residual_le_denom (N := N) A B X r t
    have h0 : 0 ≤ b * max (denom N A B X r t) ((1 / 10) ^ 4 * D) := mul_nonneg hb0 (le_max_of_le_left hden)
    linarith

theorem vrep_add {x y : List (Fin n → K)} {X Y : Nat → Fin n → K} (hx : VRep N x X) (hy : VRep N y Y) :
    VRep N (List.zipWith (· + ·) x y) (fun r => X r + Y r) := by
  refine ⟨by rw [List.length_zipWith, hx.len, hy.len, Nat.min_self], fun r hr => ?_⟩
  rw [List.getElem?_zipWith, hx.val r hr, hy.val r hr]

/-- What is known of a refined solution. -/
def Refined (N : Nat) (A : Nat → Nat → Blk K n) (E : Nat → Blk K n) (B : Nat → Fin n → K) (x : List (Fin n → K)) : Prop :=
  ∃ X₀ d : Nat → Fin n → K, VRep N x (fun r => X₀ r + d r) ∧
    (∀ D : ℝ, 0 ≤ D → (∀ r, r < N → ∀ t, denom N A B X₀ r t ≤ D) → ∀ r, r < N → ∀ t,
      ‖(B r - ∑ c ∈ Finset.range N, (A r c).mulVec (X₀ c)) t‖ ≤ (1 / 10) ^ 13 * max (denom N A B X₀ r t) ((1 / 10) ^ 4 * D)) ∧
    ∀ r, r < N → B r - ∑ c ∈ Finset.range N, (A r c).mulVec (X₀ c + d c) = (E r).mulVec (d r)

theorem refineLoop_good (hv : p.Valid N pat) {A : Nat → Nat → Blk K n} {orig : List (Blk K n)} (R : Rep p N orig A) (Z : ZeroOut N pat A)
    {thr : ℝ} {M : Nat → Nat → Blk K n} {st : LuState K n} {bps : Nat → BlockPerm n} {e : Nat → Fin n → K}
    (I : LuInv p N pat thr A N st M bps e) {rhs : List (Fin n → K)} {B : Nat → Fin n → K} (hB : VRep N rhs B) :
    ∀ (left : Nat) (res dx x : List (Fin n → K)) (X DX : Nat → Fin n → K), VRep N dx DX → VRep N x X →
      VRep N res (fun r => B r - ∑ c ∈ Finset.range N, (A r c).mulVec (X c)) →
      Good (refineLoop p ⟨st.data, st.perms, st.flag⟩ orig rhs left res dx x) (Refined N A (fun r => blockE (bps r) (e r)) B) := by
  intro left
  induction left with
  | zero => intro res dx x X DX _ _ _; exact Or.inl rfl
  | succ left ih =>
    intro res dx x X DX hdx hx hres
    obtain ⟨y, Y, h1, h2, h3⟩ := solveOnce_ok hv I (some res) dx _ DX hdx hres
    obtain ⟨b, hb, hbound⟩ := backwardError_ok hv R Z hB hx hres
    have hx' := vrep_add hx h2
    obtain ⟨res', hr', hres'⟩ := residual_ok hv R Z hB hx'
    unfold refineLoop
    rw [h1]
    simp only [bind, Except.bind]
    rw [hb]
    simp only
    rw [hr']
    simp only
    split_ifs with hberr
    · exact ih res' y _ _ Y h2 hx' hres'
    · right
      refine ⟨_, rfl, X, Y, hx', fun D hD hDle r hr t => ?_, fun r hr => ?_⟩
      · refine (hbound D hD hDle r hr t).trans (mul_le_mul_of_nonneg_right (not_lt.mp hberr) ?_)
        exact le_max_of_le_left (denom_nonneg A B X r t)
      · have := h3 r hr
        have hs : ∑ c ∈ Finset.range N, (A r c).mulVec (X c + Y c) =
            (∑ c ∈ Finset.range N, (A r c).mulVec (X c)) + ∑ c ∈ Finset.range N, (A r c).mulVec (Y c) := by
          rw [← Finset.sum_add_distrib]
          exact Finset.sum_congr rfl fun c _ => Matrix.mulVec_add _ _ _
        rw [hs, ← sub_sub, ← this]
        abel

theorem solveRefined_good (hv : p.Valid N pat) {A : Nat → Nat → Blk K n} {orig : List (Blk K n)} (R : Rep p N orig A) (Z : ZeroOut N pat A)
    {thr : ℝ} {M : Nat → Nat → Blk K n} {st : LuState K n} {bps : Nat → BlockPerm n} {e : Nat → Fin n → K}
    (I : LuInv p N pat thr A N st M bps e) {rhs : List (Fin n → K)} {B : Nat → Fin n → K} (hB : VRep N rhs B) :
    Good (solveRefined p ⟨st.data, st.perms, st.flag⟩ orig rhs) (Refined N A (fun r => blockE (bps r) (e r)) B) := by
  unfold solveRefined
  rw [hv.size_eq]
  have h0 : VRep N (List.replicate N (0 : Fin n → K)) (fun _ => 0) := ⟨by simp, fun r hr => by simp [hr]⟩
  exact refineLoop_good hv R Z I hB 6 rhs _ _ _ _ h0 h0 (by simpa using hB)

/-! ## The threshold -/

theorem blockNorm_le (a : Blk K n) (b : ℝ) (hb : 0 ≤ b) (h : ∀ t, ∑ s, ‖a t s‖ ≤ b) : blockNorm a ≤ b := by
  unfold blockNorm
  exact maxVal_le 0 b (fun t => ∑ s, ‖a t s‖) hb h

theorem matrixNorm_le (hv : p.Valid N pat) {A : Nat → Nat → Blk K n} {data : List (Blk K n)} (R : Rep p N data A) (Z : ZeroOut N pat A)
    (β : Nat → Nat → ℝ) (hβ : ∀ r c, 0 ≤ β r c) (hA : ∀ r c, r < N → c < N → ∀ t, ∑ s, ‖A r c t s‖ ≤ β r c) (μ : ℝ) (hμ : 0 ≤ μ)
    (hrow : ∀ r, r < N → ∑ c ∈ Finset.range N, (if c = r then 0 else β r c) ≤ μ) : matrixNorm p data ≤ μ := by
  unfold matrixNorm
  rw [hv.size_eq]
  have key : ∀ (l : List Nat) (m : ℝ) (F : Nat → ℝ), m ≤ μ → (∀ r ∈ l, F r ≤ μ) → l.foldl (fun m r => max m (F r)) m ≤ μ := by
    intro l
    induction l with
    | nil => intro m F h _; exact h
    | cons a l ih => intro m F h1 h2; exact ih _ F (max_le h1 (h2 a (by simp))) (fun r hr => h2 r (by simp [hr]))
  refine key _ _ _ hμ (fun r hr => ?_)
  have hr := List.mem_range.mp hr
  refine le_trans ?_ (hrow r hr)
  have inner : ∀ (l : List Nat) (s : ℝ), (∀ i ∈ l, p.start r ≤ i ∧ i < p.start (r + 1)) →
      l.foldl (fun s i => if p.col i = r then s else s + blockNorm (data[i]?.getD 0)) s ≤
        s + ((l.map p.col).map fun c => if c = r then 0 else β r c).sum := by
    intro l
    induction l with
    | nil => intro s _; simp
    | cons i l ih =>
      intro s hl
      have hi := hl i (by simp)
      obtain ⟨hat, hpat⟩ := at_of_bounds hv hr hi.1 hi.2
      rw [List.foldl_cons]
      refine (ih _ (fun j hj => hl j (by simp [hj]))).trans ?_
      simp only [List.map_cons, List.sum_cons]
      split_ifs with h
      · linarith
      · have : blockNorm (data[i]?.getD 0) ≤ β r (p.col i) := by
          rw [R.val r _ i hr hat]
          exact blockNorm_le _ _ (hβ _ _) (hA r _ hr (hv.range r _ hr hpat))
        linarith
  refine (inner _ 0 (fun i hi => by rw [mem_idxRange] at hi; exact hi)).trans ?_
  rw [zero_add]
  obtain ⟨h1, h2⟩ := fullCols_spec hv hr
  rw [← List.sum_toFinset _ (h1.imp fun h => Nat.ne_of_lt h)]
  refine Finset.sum_le_sum_of_subset_of_nonneg (fun c hc => ?_) (fun c _ _ => ?_)
  · exact Finset.mem_range.mpr (hv.range r c hr ((h2 c).mp (List.mem_toFinset.mp hc)))
  · split_ifs
    · exact le_rfl
    · exact hβ r c

end PGM.Lu
