import Verif.Lu.Scalar

/-!
# C16: what the sparse solver returns solves the system

`P/math_solver/sparse_lu_solver.hpp`. The specification is the block linear system itself.
-/

namespace PGM.Lu

variable {K : Type} [RCLike K] {n : Nat} {p : Pattern} {N : Nat} {pat : Nat → Nat → Prop}

/-- The data, one block for each position of the pattern, are the blocks of `A`, which is zero outside of the pattern. -/
structure Holds (p : Pattern) (N : Nat) (pat : Nat → Nat → Prop) (data : List (Blk K n)) (A : Nat → Nat → Blk K n) : Prop where
  len : data.length = p.colIndices.length
  entry : ∀ r c i, r < N → YBus.EntryAt p.rowIndptr p.colIndices r c i → data[i]? = some (A r c)
  zero : ∀ r c, r < N → c < N → ¬ pat r c → A r c = 0

/-- Entry `t` of block `r` of a vector. -/
def at' (x : List (Fin n → K)) (r : Nat) (t : Fin n) : K := (x[r]?.getD 0) t

/-- Entry `t` of block row `r` of `A x`. -/
def product (N : Nat) (A : Nat → Nat → Blk K n) (x : List (Fin n → K)) (r : Nat) (t : Fin n) : K :=
  ∑ c ∈ Finset.range N, ∑ s, A r c t s * at' x c s

/-- `x` is a vector of `N` blocks with `A x = b`. -/
def SolvesSystem (N : Nat) (A : Nat → Nat → Blk K n) (x b : List (Fin n → K)) : Prop :=
  x.length = N ∧ ∀ r, r < N → ∀ t, product N A x r t = at' b r t

theorem Holds.rep {data : List (Blk K n)} {A : Nat → Nat → Blk K n} (h : Holds p N pat data A) : Rep p N data A := ⟨h.len, h.entry⟩

theorem vrep_of_length {x : List (Fin n → K)} (h : x.length = N) : VRep N x (at' x) :=
  ⟨h, fun r hr => by
    have : x[r]? = some x[r] := List.getElem?_eq_getElem (by omega)
    rw [this]
    congr 1
    funext t
    unfold at'
    rw [this]
    rfl⟩

theorem VRep.at_eq {x : List (Fin n → K)} {X : Nat → Fin n → K} (h : VRep N x X) {r : Nat} (hr : r < N) : at' x r = X r := by
  funext t
  unfold at'
  rw [h.val r hr]
  rfl

theorem product_eq {A : Nat → Nat → Blk K n} {x : List (Fin n → K)} {X : Nat → Fin n → K} (h : VRep N x X) (r : Nat) (t : Fin n) :
    product N A x r t = (∑ c ∈ Finset.range N, (A r c).mulVec (X c)) t := by
  unfold product
  rw [Finset.sum_apply]
  apply Finset.sum_congr rfl
  intro c hc
  rw [h.at_eq (Finset.mem_range.mp hc)]
  rfl

theorem prefactorize_inv (hv : p.Valid N pat) {use : Bool} {A : Nat → Nat → Blk K n} {data : List (Blk K n)} {perms : List (BlockPerm n)}
    (hA : Holds p N pat data A) (hlen : perms.length = N) {f : Factors K n} (hf : prefactorize p use data perms = .ok f) :
    ∃ st M bps e, LuInv p N pat (threshold p use data) A N st M bps e ∧ f = ⟨st.data, st.perms, st.flag⟩ := by
  rcases prefactorize_good hv use A data perms hA.zero hA.rep hlen with h | ⟨f', h, hI⟩
  · rw [h] at hf; exact absurd hf (by simp)
  · rw [h] at hf
    injection hf with hf
    rw [← hf]
    exact hI

/-- The solution is exact if no pivot was perturbed. -/
theorem solve_unperturbed (hv : p.Valid N pat) (use : Bool) (A : Nat → Nat → Blk K n) (data : List (Blk K n)) (perms : List (BlockPerm n))
    (hA : Holds p N pat data A) (hlen : perms.length = N) (f : Factors K n) (hf : prefactorize p use data perms = .ok f)
    (hex : f.perturbed = false ∨ use = false) (b x : List (Fin n → K)) (hb : b.length = N) (hx : x.length = N) :
    (∃ y, solveOnce p f (some b) x = .ok y ∧ SolvesSystem N A y b) ∧ (∃ y, solveOnce p f none b = .ok y ∧ SolvesSystem N A y b) ∧
      ∀ y z, SolvesSystem N A y b → SolvesSystem N A z b → y = z := by
  obtain ⟨st, M, bps, e, I, rfl⟩ := prefactorize_inv hv hA hlen hf
  have he : ∀ r, e r = 0 := fun r => by
    rcases hex with h | h
    · exact I.exact h r
    · funext t
      have h1 := I.small r t
      rw [show threshold p use data = 0 by simp [threshold, h]] at h1
      exact norm_le_zero_iff.mp h1
  have hE : ∀ r, blockE (bps r) (e r) = 0 := fun r => by
    funext s t
    unfold blockE
    rw [he r]
    split_ifs <;> rfl
  have conclude : ∀ (y : List (Fin n → K)) (Y : Nat → Fin n → K), VRep N y Y →
      (∀ r, r < N → (∑ c ∈ Finset.range N, (A r c).mulVec (Y c)) + (blockE (bps r) (e r)).mulVec (Y r) = at' b r) → SolvesSystem N A y b := by
    intro y Y hy h
    refine ⟨hy.len, fun r hr t => ?_⟩
    rw [product_eq hy, ← h r hr, hE, Matrix.zero_mulVec, add_zero]
  refine ⟨?_, ?_, ?_⟩
  · obtain ⟨y, Y, h1, h2, h3⟩ := solveOnce_ok hv I (some b) x (at' b) _ (vrep_of_length hx) (vrep_of_length hb)
    exact ⟨y, h1, conclude y Y h2 h3⟩
  · obtain ⟨y, Y, h1, h2, h3⟩ := solveOnce_ok hv I none b (at' b) _ (vrep_of_length hb) (vrep_of_length hb)
    exact ⟨y, h1, conclude y Y h2 h3⟩
  · intro y z hy hz
    have key : ∀ r, r < N → permVec (bps r).q.symm (at' y r - at' z r) = 0 := by
      refine factors_injective I.factor I.diag (fun r => permVec (bps r).q.symm (at' y r - at' z r)) (fun r hr => ?_)
      have hq : ∀ c, permVec (bps c).q (permVec (bps c).q.symm (at' y c - at' z c)) = at' y c - at' z c := fun c => by
        funext t; simp [permVec]
      simp only [hq, hE, Matrix.zero_mulVec, add_zero]
      have h1 : ∀ c ∈ Finset.range N, (A r c).mulVec (at' y c - at' z c) = (A r c).mulVec (at' y c) - (A r c).mulVec (at' z c) :=
        fun c _ => Matrix.mulVec_sub _ _ _
      rw [Finset.sum_congr rfl h1, Finset.sum_sub_distrib]
      funext t
      rw [Pi.sub_apply, ← product_eq (vrep_of_length hy.1), ← product_eq (vrep_of_length hz.1), hy.2 r hr t, hz.2 r hr t]
      simp
    apply List.ext_getElem (by rw [hy.1, hz.1])
    intro r h1 h2
    have hr : r < N := by rw [← hy.1]; exact h1
    have h3 := key r hr
    have h4 : at' y r - at' z r = 0 := by
      funext t
      have := congrFun h3 ((bps r).q.symm t)
      simpa [permVec] using this
    have h5 : at' y r = at' z r := sub_eq_zero.mp h4
    have e1 : at' y r = y[r] := by funext t; simp [at', h1]
    have e2 : at' z r = z[r] := by funext t; simp [at', h2]
    rw [← e1, ← e2, h5]

/-- **C16, the solution is exact.** On every symmetric pattern that is closed under elimination, if the factorisation without perturbation is
accepted, then for every right-hand side the substitution ends, without undefined behaviour, with a solution of the system, and it is the only
one. This holds for a separate right-hand side and for one that is overwritten by the solution. -/
theorem solve_exact (hv : p.Valid N pat) (A : Nat → Nat → Blk K n) (data : List (Blk K n)) (perms : List (BlockPerm n))
    (hA : Holds p N pat data A) (hlen : perms.length = N) (f : Factors K n) (hf : prefactorize p false data perms = .ok f)
    (b x : List (Fin n → K)) (hb : b.length = N) (hx : x.length = N) :
    (∃ y, solveOnce p f (some b) x = .ok y ∧ SolvesSystem N A y b) ∧ (∃ y, solveOnce p f none b = .ok y ∧ SolvesSystem N A y b) ∧
      ∀ y z, SolvesSystem N A y b → SolvesSystem N A z b → y = z :=
  solve_unperturbed hv false A data perms hA hlen f hf (Or.inr rfl) b x hb hx

/-- **C16, no undefined behaviour.** Factorising and solving, with or without perturbation, never reads or writes out of range and never
violates an assertion: it returns a vector, or reports a singular matrix. -/
theorem solve_total (hv : p.Valid N pat) (use : Bool) (A : Nat → Nat → Blk K n) (data : List (Blk K n)) (perms : List (BlockPerm n))
    (hA : Holds p N pat data A) (hlen : perms.length = N) (b : List (Fin n → K)) (hb : b.length = N) :
    factorizeAndSolve p use data perms b = .error .singular ∨ ∃ x, factorizeAndSolve p use data perms b = .ok x ∧ x.length = N := by
  unfold factorizeAndSolve
  rcases prefactorize_good hv use A data perms hA.zero hA.rep hlen with h | ⟨f, h, st, M, bps, e, I, rfl⟩
  · left; rw [h]; rfl
  · rw [h]
    simp only [bind, Except.bind]
    split_ifs
    · rcases solveRefined_good hv hA.rep hA.zero I (vrep_of_length hb) with h | ⟨x, h, X₀, d, hx, _⟩
      · exact Or.inl h
      · exact Or.inr ⟨x, h, hx.len⟩
    · obtain ⟨y, Y, h1, h2, _⟩ := solveOnce_ok hv I none b (at' b) _ (vrep_of_length hb) (vrep_of_length hb)
      exact Or.inr ⟨y, h1, h2.len⟩

/-- **C16, the whole call.** Without perturbation, what factorising and solving returns in the vector of the right-hand side is the solution. -/
theorem factorizeAndSolve_exact (hv : p.Valid N pat) (A : Nat → Nat → Blk K n) (data : List (Blk K n)) (perms : List (BlockPerm n))
    (hA : Holds p N pat data A) (hlen : perms.length = N) (b x : List (Fin n → K)) (hb : b.length = N)
    (h : factorizeAndSolve p false data perms b = .ok x) : SolvesSystem N A x b := by
  unfold factorizeAndSolve at h
  cases hf : prefactorize p false data perms with
  | error e => rw [hf] at h; exact absurd h (by simp [bind, Except.bind])
  | ok f =>
    rw [hf] at h
    simp only [bind, Except.bind] at h
    rw [prefactorize_flag hv A data perms hA.zero hA.rep hlen f hf] at h
    obtain ⟨_, ⟨y, hy, hs⟩, _⟩ := solve_exact hv A data perms hA hlen f hf b b hb hb
    rw [if_neg (by simp), hy] at h
    injection h with h
    rw [← h]
    exact hs

/-- **C16, a singular matrix is reported.** If a non-zero vector is mapped to zero, the factorisation without perturbation throws. -/
theorem singular_reported (hv : p.Valid N pat) (A : Nat → Nat → Blk K n) (data : List (Blk K n)) (perms : List (BlockPerm n))
    (hA : Holds p N pat data A) (hlen : perms.length = N) (z : List (Fin n → K)) (hz : SolvesSystem N A z (List.replicate N 0))
    (hz0 : z ≠ List.replicate N 0) : prefactorize p false data perms = .error .singular := by
  rcases prefactorize_good hv false A data perms hA.zero hA.rep hlen with h | ⟨f, h, _⟩
  · exact h
  · exfalso
    obtain ⟨_, _, huniq⟩ := solve_exact hv A data perms hA hlen f h (List.replicate N 0) (List.replicate N 0) (by simp) (by simp)
    refine hz0 (huniq _ _ hz ⟨by simp, fun r hr t => ?_⟩)
    have h0 : ∀ c, at' (List.replicate N (0 : Fin n → K)) c = 0 := by
      intro c
      funext t
      unfold at'
      rw [List.getElem?_replicate]
      split_ifs <;> rfl
    unfold product
    simp [h0]

/-- **C16, which scalar systems are accepted.** With scalar entries and without perturbation the factorisation succeeds if and only if all
leading square parts of the matrix are regular. The rows are not exchanged, so that the whole matrix is regular is not enough. -/
theorem scalar_accepted_iff (hv : p.Valid N pat) (A : Nat → Nat → Blk K 1) (data : List (Blk K 1)) (perms : List (BlockPerm 1))
    (hA : Holds p N pat data A) (hlen : perms.length = N) :
    (∃ f, prefactorize p false data perms = .ok f) ↔
      ∀ k, k ≤ N → ∀ z : Nat → K, (∀ r, r < k → ∑ c ∈ Finset.range k, A r c 0 0 * z c = 0) → ∀ c, c < k → z c = 0 := by
  have hthr : threshold p false data = 0 := by simp [threshold]
  constructor
  · rintro ⟨f, hf⟩ k hk z hz
    obtain ⟨st, M, bps, e, I, rfl⟩ := prefactorize_inv hv hA hlen hf
    rw [hthr] at I
    have he : ∀ r, e r = 0 := fun r => by
      funext t
      exact norm_le_zero_iff.mp (I.small r t)
    have hX : ∀ q : Equiv.Perm (Fin 1), ∀ X : Blk K 1, permRows q X = X := fun q X => by
      funext s t
      show X _ _ = X _ _
      rw [Subsingleton.elim (q.symm s) s]
    have hY : ∀ q : Equiv.Perm (Fin 1), ∀ X : Blk K 1, permCols X q = X := fun q X => by
      funext s t
      show X _ _ = X _ _
      rw [Subsingleton.elim (q t) t]
    have hV : ∀ q : Equiv.Perm (Fin 1), ∀ v : Fin 1 → K, permVec q v = v := fun q v => by
      funext s
      show v _ = v _
      rw [Subsingleton.elim (q.symm s) s]
    have hE : ∀ r, blockE (bps r) (e r) = 0 := fun r => by
      funext s t
      unfold blockE
      rw [he r]
      split_ifs <;> rfl
    -- the factors of the leading part
    have hfac : ∀ i j, permuted bps k (fun i j => if i < k ∧ j < k then A i j else 0) i j +
        (if i = j ∧ i < k then Matrix.diagonal (e i) else 0) =
        (∑ m ∈ Finset.range k, lowerF (fun i j => if i < k ∧ j < k then M i j else 0) i m *
          upperF (fun i j => if i < k ∧ j < k then M i j else 0) m j) + remains (fun i j => if i < k ∧ j < k then M i j else 0) k i j := by
      intro i j
      have hp : ∀ (B : Nat → Nat → Blk K 1) k' i j, permuted bps k' B i j = B i j := by
        intro B k' i j
        unfold permuted
        simp only
        split_ifs <;> simp [hX, hY]
      rw [hp]
      have hdiag : (if i = j ∧ i < k then Matrix.diagonal (e i) else 0 : Blk K 1) = 0 := by
        rw [he i]
        split_ifs <;> simp
      rw [hdiag, add_zero]
      by_cases hij : i < k ∧ j < k
      · rw [if_pos hij]
        have h1 := I.factor i j
        rw [hp] at h1
        have hdiag : (if i = j ∧ i < N then Matrix.diagonal (e i) else 0 : Blk K 1) = 0 := by
          rw [he i]
          split_ifs <;> simp
        have hrem : remains M N i j = 0 := by unfold remains; rw [if_neg (by omega)]
        have hrem' : remains (fun i j => if i < k ∧ j < k then M i j else 0) k i j = 0 := by unfold remains; rw [if_neg (by omega)]
        rw [hdiag, hrem, add_zero, add_zero] at h1
        rw [h1, hrem', add_zero]
        symm
        have hsub : Finset.range k ⊆ Finset.range N := Finset.range_subset_range.mpr hk
        have hcongr : ∀ m ∈ Finset.range k, lowerF (fun i j => if i < k ∧ j < k then M i j else 0) i m *
            upperF (fun i j => if i < k ∧ j < k then M i j else 0) m j = lowerF M i m * upperF M m j := by
          intro m hm
          have := Finset.mem_range.mp hm
          simp [lowerF, upperF, hij.1, hij.2, this]
        rw [Finset.sum_congr rfl hcongr]
        refine Finset.sum_subset hsub (fun m _ hm => ?_)
        have : k ≤ m := by simpa using hm
        rw [show lowerF M i m = 0 by unfold lowerF; rw [if_neg (by omega), if_neg (by omega)], zero_mul]
      · rw [if_neg hij]
        symm
        have hrem' : remains (fun i j => if i < k ∧ j < k then M i j else 0) k i j = 0 := by
          unfold remains
          split_ifs with h
          · exact if_neg (by omega)
          · rfl
        rw [hrem', add_zero]
        apply Finset.sum_eq_zero
        intro m hm
        have hm := Finset.mem_range.mp hm
        by_cases hi : i < k
        · have hj : ¬ j < k := fun h => hij ⟨hi, h⟩
          have : upperF (fun i j => if i < k ∧ j < k then M i j else 0) m j = 0 := by
            unfold upperF
            rw [if_pos (by omega)]
            exact if_neg (by omega)
          rw [this, mul_zero]
        · have : lowerF (fun i j => if i < k ∧ j < k then M i j else 0) i m = 0 := by
            unfold lowerF
            rw [if_pos (by omega)]
            exact if_neg (by omega)
          rw [this, zero_mul]
    have := factors_injective (N := k) hfac (fun r hr t => by simpa [hr] using I.diag r (by omega) t) (fun c _ => z c) (fun r hr => by
      rw [hE, Matrix.zero_mulVec, add_zero]
      funext t
      rw [Finset.sum_apply, Subsingleton.elim t 0]
      rw [Pi.zero_apply, ← hz r hr]
      apply Finset.sum_congr rfl
      intro c hc
      rw [hV, if_pos ⟨hr, Finset.mem_range.mp hc⟩]
      simp [Matrix.mulVec, dotProduct])
    exact fun c hc => congrFun (this c hc) 0
  · intro hmin
    have hz := hA.zero
    have hrep := hA.rep
    have := foldlM_range_induct (pivotAt p (threshold p false data) false)
      (fun k st => ∃ M bps e, LuInv p N pat 0 A k st M bps e) N ⟨data, p.rowIndptr.dropLast, perms, false⟩
      ⟨A, fun _ => ⟨1, 1⟩, fun _ => 0, hrep, hz, cpos_init hv, hlen, fun r hr => absurd hr (Nat.not_lt_zero r),
        fun r hr => absurd hr (Nat.not_lt_zero r), fun r t => by simp, fun _ _ => rfl, fun i j => by simp [permuted, remains]⟩
      (fun k st hk hI => by
        obtain ⟨M, bps, e, I⟩ := hI
        rw [hthr]
        rcases lu_step hv le_rfl false hk I with h | ⟨st', h, h'⟩
        · exfalso
          rcases pivot_step hv hk 0 false M st I.zero I.rep I.pos I.permLen with ⟨h2, _⟩ | ⟨_, _, _, _, _, h2, _⟩
          · exact scalar_pivot I (hmin (k + 1) (by omega)) (factorizeBlock_scalar false _ _ h2)
          · rw [h] at h2; exact absurd h2 (by simp)
        · exact ⟨st', h, h'⟩)
    obtain ⟨st, h, _⟩ := this
    refine ⟨⟨st.data, st.perms, st.flag⟩, ?_⟩
    unfold prefactorize
    rw [hv.size_eq, h]
    rfl

/-- **C16, perturbed pivots.** With or without perturbation an accepted factorisation is the exact one of a matrix whose diagonal blocks differ
in at most one entry per row and per column, by at most `10⁻¹³` times the largest sum of off-diagonal block norms of a row; without a reported
perturbation they do not differ at all. Every substitution solves that system. -/
theorem solve_perturbed (hv : p.Valid N pat) (use : Bool) (A : Nat → Nat → Blk K n) (data : List (Blk K n)) (perms : List (BlockPerm n))
    (hA : Holds p N pat data A) (hlen : perms.length = N) (f : Factors K n) (hf : prefactorize p use data perms = .ok f)
    (β : Nat → Nat → ℝ) (hβ : ∀ r c, 0 ≤ β r c) (hAβ : ∀ r c, r < N → c < N → ∀ t, ∑ s, ‖A r c t s‖ ≤ β r c) (μ : ℝ) (hμ : 0 ≤ μ)
    (hrow : ∀ r, r < N → ∑ c ∈ Finset.range N, (if c = r then 0 else β r c) ≤ μ) :
    ∃ E : Nat → Blk K n, (∀ r s t, ‖E r s t‖ ≤ (1 / 10) ^ 13 * μ) ∧ (∀ r s t t', E r s t ≠ 0 → E r s t' ≠ 0 → t = t') ∧
      (∀ r s s' t, E r s t ≠ 0 → E r s' t ≠ 0 → s = s') ∧ (f.perturbed = false ∨ use = false → ∀ r, E r = 0) ∧
      ∀ b x : List (Fin n → K), b.length = N → x.length = N → ∃ y, solveOnce p f (some b) x = .ok y ∧
        SolvesSystem N (fun r c => if r = c then A r c + E r else A r c) y b := by
  obtain ⟨st, M, bps, e, I, rfl⟩ := prefactorize_inv hv hA hlen hf
  have hthr : threshold p use data ≤ (1 / 10) ^ 13 * μ := by
    unfold threshold
    split_ifs
    · exact mul_le_mul_of_nonneg_left (matrixNorm_le hv hA.rep hA.zero β hβ hAβ μ hμ hrow) (by positivity)
    · positivity
  refine ⟨fun r => blockE (bps r) (e r), fun r s t => ?_, fun r s t t' h1 h2 => ?_, fun r s s' t h1 h2 => ?_, fun hE r => ?_,
    fun b x hb hx => ?_⟩
  · show ‖blockE _ _ _ _‖ ≤ _
    unfold blockE
    split_ifs
    · exact (I.small r _).trans hthr
    · rw [norm_zero]; positivity
  · change blockE _ _ _ _ ≠ 0 at h1 h2
    unfold blockE at h1 h2
    rw [ne_eq, ite_eq_right_iff, Classical.not_imp] at h1 h2
    exact (bps r).q.symm.injective (h1.1.trans h2.1.symm)
  · change blockE _ _ _ _ ≠ 0 at h1 h2
    unfold blockE at h1 h2
    rw [ne_eq, ite_eq_right_iff, Classical.not_imp] at h1 h2
    exact (bps r).p.injective (h1.1.symm.trans h2.1)
  · have : e r = 0 := by
      rcases hE with h | h
      · exact I.exact h r
      · funext t
        have h1 := I.small r t
        rw [show threshold p use data = 0 by simp [threshold, h]] at h1
        exact norm_le_zero_iff.mp h1
    funext s t
    show blockE _ _ _ _ = 0
    unfold blockE
    rw [this]
    split_ifs <;> rfl
  · obtain ⟨y, Y, h1, h2, h3⟩ := solveOnce_ok hv I (some b) x (at' b) _ (vrep_of_length hx) (vrep_of_length hb)
    refine ⟨y, h1, h2.len, fun r hr t => ?_⟩
    rw [product_eq h2, ← h3 r hr]
    have hsplit : ∑ c ∈ Finset.range N, (if r = c then A r c + blockE (bps r) (e r) else A r c).mulVec (Y c) =
        (∑ c ∈ Finset.range N, (A r c).mulVec (Y c)) + (blockE (bps r) (e r)).mulVec (Y r) := by
      have : ∀ c ∈ Finset.range N, (if r = c then A r c + blockE (bps r) (e r) else A r c).mulVec (Y c) =
          (A r c).mulVec (Y c) + if r = c then (blockE (bps r) (e r)).mulVec (Y c) else 0 := by
        intro c _
        split_ifs with h
        · exact Matrix.add_mulVec _ _ _
        · rw [add_zero]
      rw [Finset.sum_congr rfl this, Finset.sum_add_distrib, Finset.sum_ite_eq, if_pos (Finset.mem_range.mpr hr)]
    exact congrFun hsplit t

/-- The size of the terms of an equation of the system. -/
noncomputable def scale (N : Nat) (A : Nat → Nat → Blk K n) (b x : List (Fin n → K)) (r : Nat) (t : Fin n) : ℝ :=
  ‖at' b r t‖ + ∑ c ∈ Finset.range N, ∑ s, ‖A r c t s‖ * ‖at' x c s‖

/-- **C16, refinement.** If a perturbed factorisation is used and a vector is returned, it is the sum of a vector `x₀`, which fulfils each
equation of the original system up to `10⁻¹³` of the size of its terms (or of `10⁻⁴` times the largest such size), and a correction `d`, and what
is left in each equation is at most `10⁻¹³ μ` times the sizes of entries of the correction. Otherwise the matrix is reported as singular,
after at most six solves. -/
theorem solve_refined (hv : p.Valid N pat) (A : Nat → Nat → Blk K n) (data : List (Blk K n)) (perms : List (BlockPerm n))
    (hA : Holds p N pat data A) (hlen : perms.length = N) (f : Factors K n) (hf : prefactorize p true data perms = .ok f)
    (b : List (Fin n → K)) (hb : b.length = N)
    (β : Nat → Nat → ℝ) (hβ : ∀ r c, 0 ≤ β r c) (hAβ : ∀ r c, r < N → c < N → ∀ t, ∑ s, ‖A r c t s‖ ≤ β r c) (μ : ℝ) (hμ : 0 ≤ μ)
    (hrow : ∀ r, r < N → ∑ c ∈ Finset.range N, (if c = r then 0 else β r c) ≤ μ) :
    solveRefined p f data b = .error .singular ∨
    ∃ x x₀ d : List (Fin n → K), solveRefined p f data b = .ok x ∧ x.length = N ∧ x₀.length = N ∧ d.length = N ∧
      (∀ r, r < N → ∀ t, at' x r t = at' x₀ r t + at' d r t) ∧
      (∀ D : ℝ, 0 ≤ D → (∀ r, r < N → ∀ t, scale N A b x₀ r t ≤ D) → ∀ r, r < N → ∀ t,
        ‖at' b r t - product N A x₀ r t‖ ≤ (1 / 10) ^ 13 * max (scale N A b x₀ r t) ((1 / 10) ^ 4 * D)) ∧
      ∀ r, r < N → ∀ t, ‖at' b r t - product N A x r t‖ ≤ (1 / 10) ^ 13 * μ * ∑ s, ‖at' d r s‖ := by
  obtain ⟨st, M, bps, e, I, rfl⟩ := prefactorize_inv hv hA hlen hf
  have hthr : threshold p true data ≤ (1 / 10) ^ 13 * μ := by
    unfold threshold
    rw [if_pos rfl]
    exact mul_le_mul_of_nonneg_left (matrixNorm_le hv hA.rep hA.zero β hβ hAβ μ hμ hrow) (by positivity)
  rcases solveRefined_good hv hA.rep hA.zero I (vrep_of_length hb) with h | ⟨x, h, X₀, d, hx, h1, h2⟩
  · exact Or.inl h
  · right
    have v0 := vrep_range (N := N) X₀
    have vd := vrep_range (N := N) d
    have hscale : ∀ r, r < N → ∀ t, scale N A b ((List.range N).map X₀) r t = denom N A (at' b) X₀ r t := by
      intro r _ t
      unfold scale denom
      congr 1
      apply Finset.sum_congr rfl
      intro c hc
      rw [v0.at_eq (Finset.mem_range.mp hc)]
    refine ⟨x, (List.range N).map X₀, (List.range N).map d, h, hx.len, v0.len, vd.len, fun r hr t => ?_, fun D hD hDle r hr t => ?_,
      fun r hr t => ?_⟩
    · rw [hx.at_eq hr, v0.at_eq hr, vd.at_eq hr]; rfl
    · rw [hscale r hr, product_eq v0]
      exact h1 D hD (fun r hr t => by rw [← hscale r hr]; exact hDle r hr t) r hr t
    · have h3 := congrFun (h2 r hr) t
      rw [product_eq hx]
      rw [Pi.sub_apply] at h3
      rw [h3, vd.at_eq hr]
      show ‖∑ s, blockE (bps r) (e r) t s * d r s‖ ≤ _
      refine (norm_sum_le _ _).trans ?_
      rw [Finset.mul_sum]
      refine Finset.sum_le_sum fun s _ => ?_
      rw [norm_mul]
      refine mul_le_mul_of_nonneg_right ?_ (norm_nonneg _)
      unfold blockE
      split_ifs
      · exact (I.small r _).trans hthr
      · rw [norm_zero]; positivity

/-- **C16, the whole call with perturbation.** What factorising and solving returns is a solution, or it is accurate in the sense of
`solve_refined` for the system that was given, not for the perturbed one. -/
theorem factorizeAndSolve_accurate (hv : p.Valid N pat) (A : Nat → Nat → Blk K n) (data : List (Blk K n)) (perms : List (BlockPerm n))
    (hA : Holds p N pat data A) (hlen : perms.length = N) (b x : List (Fin n → K)) (hb : b.length = N)
    (β : Nat → Nat → ℝ) (hβ : ∀ r c, 0 ≤ β r c) (hAβ : ∀ r c, r < N → c < N → ∀ t, ∑ s, ‖A r c t s‖ ≤ β r c) (μ : ℝ) (hμ : 0 ≤ μ)
    (hrow : ∀ r, r < N → ∑ c ∈ Finset.range N, (if c = r then 0 else β r c) ≤ μ) (h : factorizeAndSolve p true data perms b = .ok x) :
    SolvesSystem N A x b ∨
    ∃ x₀ d : List (Fin n → K), x.length = N ∧ x₀.length = N ∧ d.length = N ∧ (∀ r, r < N → ∀ t, at' x r t = at' x₀ r t + at' d r t) ∧
      (∀ D : ℝ, 0 ≤ D → (∀ r, r < N → ∀ t, scale N A b x₀ r t ≤ D) → ∀ r, r < N → ∀ t,
        ‖at' b r t - product N A x₀ r t‖ ≤ (1 / 10) ^ 13 * max (scale N A b x₀ r t) ((1 / 10) ^ 4 * D)) ∧
      ∀ r, r < N → ∀ t, ‖at' b r t - product N A x r t‖ ≤ (1 / 10) ^ 13 * μ * ∑ s, ‖at' d r s‖ := by
  unfold factorizeAndSolve at h
  cases hf : prefactorize p true data perms with
  | error e => rw [hf] at h; exact absurd h (by simp [bind, Except.bind])
  | ok f =>
    rw [hf] at h
    simp only [bind, Except.bind] at h
    split_ifs at h with hper
    · right
      rcases solve_refined hv A data perms hA hlen f hf b hb β hβ hAβ μ hμ hrow with h' | ⟨y, x₀, d, h1, h2⟩
      · rw [h'] at h; exact absurd h (by simp)
      · rw [h1] at h
        injection h with h
        rw [← h]
        exact ⟨x₀, d, h2⟩
    · left
      obtain ⟨st, M, bps, e, I, rfl⟩ := prefactorize_inv hv hA hlen hf
      obtain ⟨y, Y, h1, h2, h3⟩ := solveOnce_ok hv I none b (at' b) _ (vrep_of_length hb) (vrep_of_length hb)
      rw [h1] at h
      injection h with h
      rw [← h]
      refine ⟨h2.len, fun r hr t => ?_⟩
      have he : e r = 0 := I.exact (by simpa using hper) r
      have hE : blockE (bps r) (e r) = 0 := by
        funext s t
        unfold blockE
        rw [he]
        split_ifs <;> rfl
      rw [product_eq h2, ← h3 r hr, hE, Matrix.zero_mulVec, add_zero]

end PGM.Lu
