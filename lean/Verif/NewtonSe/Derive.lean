import Verif.NewtonSe.Spec
import Verif.StateEst.Gain
import Mathlib.Analysis.Calculus.Deriv.Star
import Mathlib.Analysis.Calculus.Deriv.Mul
import Mathlib.Analysis.SpecialFunctions.ExpDeriv
import Mathlib.Algebra.BigOperators.Fin

/-!
# The Jacobians are derivatives of the predictions

Lemmas for C55.
-/

namespace PGM.NewtonSe

open PGM.YBus PGM.Lu PGM.PowerFlow PGM.StateEst Matrix
open PGM.NewtonPf (RM Polar phasor)

variable {s : Symm}

/-- A direction as half an unknown. -/
def vec (d : Polar s) : QV s := Sum.elim d.theta d.v

/-- The relative change of the phasors. -/
noncomputable def rel (x d : Polar s) : CV s := fun p => Complex.I * (d.theta p : ℂ) + ((1 / x.v p : ℝ) : ℂ) * (d.v p : ℂ)

theorem move_zero (x d : Nat → Polar s) : move x d 0 = x := by
  funext b
  simp [move]

theorem phasors_eq (x : Nat → Polar s) (b : Nat) : phasors x b = phasor (x b) := rfl

theorem deriv_phasors (x d : Nat → Polar s) (b : Nat) (p : Fin s.phases) (hv : (x b).v p ≠ 0) :
    HasDerivAt (fun t => phasors (move x d t) b p) (phasor (x b) p * rel (x b) (d b) p) 0 := by
  unfold phasors phasor move rel
  simp only
  have h1 : HasDerivAt (fun t : ℝ => (((x b).v p + t * (d b).v p : ℝ) : ℂ)) (((d b).v p : ℝ) : ℂ) 0 := by
    have := ((hasDerivAt_id (0 : ℝ)).mul_const ((d b).v p)).const_add ((x b).v p)
    simpa using this.ofReal_comp
  have h2 : HasDerivAt (fun t : ℝ => Complex.I * (((x b).theta p + t * (d b).theta p : ℝ) : ℂ)) (Complex.I * ((d b).theta p : ℂ)) 0 := by
    have := ((hasDerivAt_id (0 : ℝ)).mul_const ((d b).theta p)).const_add ((x b).theta p)
    simpa using this.ofReal_comp.const_mul Complex.I
  refine HasDerivAt.congr_deriv (h1.mul h2.cexp) (Eq.symm ?_)
  have hv' : ((x b).v p : ℂ) ≠ 0 := by exact_mod_cast hv
  simp
  field_simp
  ring

theorem deriv_direction (x d : Nat → Polar s) (b : Nat) (p : Fin s.phases) :
    HasDerivAt (fun t => Complex.exp (Complex.I * ((move x d t b).theta p : ℂ)))
      (Complex.exp (Complex.I * ((x b).theta p : ℂ)) * (Complex.I * ((d b).theta p : ℂ))) 0 := by
  unfold move
  simp only
  have h2 : HasDerivAt (fun t : ℝ => Complex.I * (((x b).theta p + t * (d b).theta p : ℝ) : ℂ)) (Complex.I * ((d b).theta p : ℂ)) 0 := by
    have := ((hasDerivAt_id (0 : ℝ)).mul_const ((d b).theta p)).const_add ((x b).theta p)
    simpa using this.ofReal_comp.const_mul Complex.I
  refine HasDerivAt.congr_deriv h2.cexp (Eq.symm ?_)
  simp

/-- The function has the derivatives `J`, as real and imaginary parts. -/
def Linearises (f : (Nat → Polar s) → CV s) (x : Nat → Polar s) (J : (Nat → Polar s) → QV s) : Prop :=
  ∀ d, ∃ z : CV s, (∀ p, HasDerivAt (fun t => f (move x d t) p) (z p) 0) ∧ J d = parts z

theorem parts_add (a b : CV s) : parts (a + b) = parts a + parts b := by
  funext i
  cases i <;> simp [parts]

theorem parts_sub (a b : CV s) : parts (a - b) = parts a - parts b := by
  funext i
  cases i <;> simp [parts]

theorem parts_neg (a : CV s) : parts (-a) = -parts a := by
  funext i
  cases i <;> simp [parts]

theorem parts_zero : parts (0 : CV s) = 0 := by
  funext i
  cases i <;> simp [parts]

/-- What a Jacobian does. -/
theorem jacobian_act (hm nl : CM s) (d : Polar s) :
    (jacobian hm nl).mulVec (vec d) = parts fun p => ∑ q, (-(Complex.I * hm p q) * (d.theta q : ℂ) + nl p q * (d.v q : ℂ)) := by
  unfold jacobian vec
  rw [fromBlocks_mulVec]
  funext i
  rcases i with p | p
  · simp only [Sum.elim_inl, Sum.elim_comp_inl, Sum.elim_comp_inr, parts, Pi.add_apply, mulVec, dotProduct, imM, reM, Complex.re_sum]
    rw [← Finset.sum_add_distrib]
    refine Finset.sum_congr rfl fun q _ => ?_
    simp
  · simp only [Sum.elim_inr, Sum.elim_comp_inl, Sum.elim_comp_inr, parts, Pi.add_apply, mulVec, dotProduct, imM, reM, Complex.im_sum, Matrix.neg_apply]
    rw [← Finset.sum_add_distrib]
    refine Finset.sum_congr rfl fun q _ => ?_
    simp

theorem diagonalPart_act (finv f : CV s) (d : Polar s) :
    (diagonalPart finv f).mulVec (vec d) = parts fun p => Complex.I * f p * (d.theta p : ℂ) + finv p * (d.v p : ℂ) := by
  unfold diagonalPart vec
  rw [fromBlocks_mulVec]
  funext i
  rcases i with p | p
  · simp [parts, mulVec_diagonal]
  · simp [parts, mulVec_diagonal]

theorem sumRow_hm (y : CM s) (a b : CV s) (p : Fin s.phases) : sumRow (hmForm y a b) p = a p * star (y.mulVec b p) := by
  unfold sumRow hmForm mulVec dotProduct
  rw [star_sum, Finset.mul_sum]
  refine Finset.sum_congr rfl fun q _ => ?_
  rw [star_mul']
  ring

theorem sumRow_add (a b : CM s) : sumRow (a + b) = sumRow a + sumRow b := by
  funext p
  simp [sumRow, Finset.sum_add_distrib]

/-- The derivative with respect to the other voltage. -/
theorem hm_act (y : CM s) (a : CV s) (x d : Polar s) :
    (jacobian (hmForm y a (phasor x)) (scaleCols (hmForm y a (phasor x)) x.v)).mulVec (vec d) =
      parts fun p => a p * star (y.mulVec (phasor x * rel x d) p) := by
  rw [jacobian_act]
  congr 1
  funext p
  unfold mulVec dotProduct
  rw [star_sum, Finset.mul_sum]
  refine Finset.sum_congr rfl fun q _ => ?_
  simp only [hmForm, scaleCols, rel, Pi.mul_apply, star_mul', star_add]
  simp only [Complex.star_def, Complex.conj_I, Complex.conj_ofReal]
  ring

theorem deriv_mulVec (y : CM s) (f : ℝ → CV s) (f' : CV s) (h : ∀ q, HasDerivAt (fun t => f t q) (f' q) 0) (p : Fin s.phases) :
    HasDerivAt (fun t => y.mulVec (f t) p) (y.mulVec f' p) 0 := by
  unfold mulVec dotProduct
  exact HasDerivAt.fun_sum fun q _ => (h q).const_mul (y p q)

theorem deriv_phasors' (x d : Nat → Polar s) (b : Nat) (hv : ∀ p, (x b).v p ≠ 0) (p : Fin s.phases) :
    HasDerivAt (fun t => phasors (move x d t) b p) ((phasor (x b) * rel (x b) (d b)) p) 0 := deriv_phasors x d b p (hv p)

/-- The power of a branch. -/
theorem power_linearises (yo yt : CM s) (x : Nat → Polar s) (a b : Nat) (ha : ∀ p, (x a).v p ≠ 0) (hb : ∀ p, (x b).v p ≠ 0) :
    Linearises (fun x p => phasors x a p * star ((yo.mulVec (phasors x a) + yt.mulVec (phasors x b)) p)) x fun d =>
      (powerFlow yo yt (x a) (x b)).own.mulVec (vec (d a)) + (powerFlow yo yt (x a) (x b)).other.mulVec (vec (d b)) := by
  intro d
  refine ⟨fun p => phasor (x a) p * rel (x a) (d a) p * star ((yo.mulVec (phasor (x a)) + yt.mulVec (phasor (x b))) p) +
    phasor (x a) p * star ((yo.mulVec (phasor (x a) * rel (x a) (d a)) + yt.mulVec (phasor (x b) * rel (x b) (d b))) p), fun p => ?_, ?_⟩
  · have h1 := deriv_phasors' x d a ha p
    have h2 := (deriv_mulVec yo _ _ (deriv_phasors' x d a ha) p).add (deriv_mulVec yt _ _ (deriv_phasors' x d b hb) p)
    refine HasDerivAt.congr_deriv (h1.mul h2.star) (Eq.symm ?_)
    simp only [move_zero, phasors_eq, Pi.mul_apply, Pi.add_apply]
  · unfold powerFlow
    simp only [add_mulVec]
    rw [hm_act, hm_act, diagonalPart_act, ← parts_add, ← parts_add]
    congr 1
    funext p
    simp only [Pi.add_apply, sumRow_add, sumRow_hm, star_add, rel]
    ring

theorem power_value (yo yt : CM s) (a b : Polar s) (p : Fin s.phases) :
    (powerFlow yo yt a b).f p = phasor a p * star ((yo.mulVec (phasor a) + yt.mulVec (phasor b)) p) := by
  show sumRow _ p = _
  rw [sumRow_add, Pi.add_apply, sumRow_hm, sumRow_hm, Pi.add_apply, star_add, mul_add]

theorem global_act (y : CM s) (x d : Polar s) :
    (jacobian (-timesDiagonal y (phasor x)) (scaleCols (timesDiagonal y (phasor x)) x.v)).mulVec (vec d) =
      parts fun p => y.mulVec (phasor x * rel x d) p := by
  rw [jacobian_act]
  congr 1
  funext p
  unfold mulVec dotProduct
  refine Finset.sum_congr rfl fun q _ => ?_
  simp only [Matrix.neg_apply, timesDiagonal, scaleCols, rel, Pi.mul_apply]
  ring

/-- A current with global angle. -/
theorem global_linearises (yo yt : CM s) (x : Nat → Polar s) (a b : Nat) (ha : ∀ p, (x a).v p ≠ 0) (hb : ∀ p, (x b).v p ≠ 0) :
    Linearises (fun x => yo.mulVec (phasors x a) + yt.mulVec (phasors x b)) x fun d =>
      (globalFlow yo yt (x a) (x b)).own.mulVec (vec (d a)) + (globalFlow yo yt (x a) (x b)).other.mulVec (vec (d b)) := by
  intro d
  refine ⟨yo.mulVec (phasor (x a) * rel (x a) (d a)) + yt.mulVec (phasor (x b) * rel (x b) (d b)), fun p => ?_, ?_⟩
  · exact (deriv_mulVec yo _ _ (deriv_phasors' x d a ha) p).add (deriv_mulVec yt _ _ (deriv_phasors' x d b hb) p)
  · unfold globalFlow
    simp only
    rw [global_act, global_act, ← parts_add]

theorem global_value (yo yt : CM s) (a b : Polar s) : (globalFlow yo yt a b).f = yo.mulVec (phasor a) + yt.mulVec (phasor b) := by
  show sumRow _ = _
  rw [sumRow_add]
  rfl

theorem uncoupled_mulVec {y : CM s} (hy : Uncoupled y) (u : CV s) (p : Fin s.phases) : y.mulVec u p = y p p * u p := by
  show ∑ q, y p q * u q = _
  rw [Finset.sum_eq_single p (fun q _ hq => by rw [hy p q (Ne.symm hq), zero_mul]) (fun h => absurd (Finset.mem_univ p) h)]

theorem phasor_over (x : Polar s) (p : Fin s.phases) (hv : x.v p ≠ 0) :
    phasor x p * ((1 / x.v p : ℝ) : ℂ) = Complex.exp (Complex.I * (x.theta p : ℂ)) := by
  unfold phasor
  have hv' : (x.v p : ℂ) ≠ 0 := by exact_mod_cast hv
  push_cast
  field_simp

theorem hm_uncoupled {y : CM s} (hy : Uncoupled y) (a b : CV s) : Uncoupled (hmForm y a b) := fun p q h => by simp [hmForm, hy p q h]

theorem scaleCols_uncoupled {y : CM s} (hy : Uncoupled y) (v : Fin s.phases → ℝ) : Uncoupled (scaleCols y v) := fun p q h => by
  simp [scaleCols, hy p q h]

theorem sumRow_uncoupled {y : CM s} (hy : Uncoupled y) (p : Fin s.phases) : sumRow y p = y p p := by
  unfold sumRow
  rw [Finset.sum_eq_single p (fun q _ hq => hy p q (Ne.symm hq)) (fun h => absurd (Finset.mem_univ p) h)]

theorem sum_uncoupled {A B : CM s} (hA : Uncoupled A) (hB : Uncoupled B) (d : Polar s) (p : Fin s.phases) :
    ∑ q, (-(Complex.I * A p q) * (d.theta q : ℂ) + B p q * (d.v q : ℂ)) = -(Complex.I * A p p) * (d.theta p : ℂ) + B p p * (d.v p : ℂ) := by
  rw [Finset.sum_eq_single p (fun q _ hq => by rw [hA p q (Ne.symm hq), hB p q (Ne.symm hq)]; ring) (fun h => absurd (Finset.mem_univ p) h)]

theorem local_act {y : CM s} (hy : Uncoupled y) (a x d : Polar s) (ha : ∀ p, a.v p ≠ 0) :
    (jacobian (scaleCols (hmForm y (phasor a) (phasor x)) a.v) (scaleCols (scaleCols (hmForm y (phasor a) (phasor x)) a.v) x.v)).mulVec (vec d) =
      parts fun p => Complex.exp (Complex.I * (a.theta p : ℂ)) * star (y.mulVec (phasor x * rel x d) p) := by
  rw [jacobian_act]
  congr 1
  funext p
  have h1 := scaleCols_uncoupled (hm_uncoupled hy (phasor a) (phasor x)) a.v
  rw [sum_uncoupled h1 (scaleCols_uncoupled h1 x.v), uncoupled_mulVec hy, ← phasor_over a p (ha p)]
  simp only [hmForm, scaleCols, rel, Pi.mul_apply, star_mul', star_add]
  simp only [Complex.star_def, Complex.conj_I, Complex.conj_ofReal]
  ring

theorem local_sum {y : CM s} (hy : Uncoupled y) (a x : Polar s) (ha : ∀ p, a.v p ≠ 0) (p : Fin s.phases) :
    sumRow (scaleCols (hmForm y (phasor a) (phasor x)) a.v) p = Complex.exp (Complex.I * (a.theta p : ℂ)) * star (y.mulVec (phasor x) p) := by
  rw [sumRow_uncoupled (scaleCols_uncoupled (hm_uncoupled hy _ _) _), uncoupled_mulVec hy, ← phasor_over a p (ha p)]
  simp only [hmForm, scaleCols, star_mul']
  ring

theorem local_value {yo yt : CM s} (ho : Uncoupled yo) (ht : Uncoupled yt) (a b : Polar s) (ha : ∀ p, a.v p ≠ 0) (p : Fin s.phases) :
    (localFlow yo yt a b).f p = Complex.exp (Complex.I * (a.theta p : ℂ)) * star ((yo.mulVec (phasor a) + yt.mulVec (phasor b)) p) := by
  show sumRow _ p = _
  rw [sumRow_add, Pi.add_apply, local_sum ho a a ha, local_sum ht a b ha, Pi.add_apply, star_add, mul_add]

/-- A current with local angle, where the phases are not coupled. -/
theorem local_linearises {yo yt : CM s} (ho : Uncoupled yo) (ht : Uncoupled yt) (x : Nat → Polar s) (a b : Nat) (ha : ∀ p, (x a).v p ≠ 0)
    (hb : ∀ p, (x b).v p ≠ 0) :
    Linearises (fun x p => Complex.exp (Complex.I * ((x a).theta p : ℂ)) * star ((yo.mulVec (phasors x a) + yt.mulVec (phasors x b)) p)) x fun d =>
      (localFlow yo yt (x a) (x b)).own.mulVec (vec (d a)) + (localFlow yo yt (x a) (x b)).other.mulVec (vec (d b)) := by
  intro d
  refine ⟨fun p => Complex.exp (Complex.I * ((x a).theta p : ℂ)) * (Complex.I * ((d a).theta p : ℂ)) *
      star ((yo.mulVec (phasor (x a)) + yt.mulVec (phasor (x b))) p) + Complex.exp (Complex.I * ((x a).theta p : ℂ)) *
      star ((yo.mulVec (phasor (x a) * rel (x a) (d a)) + yt.mulVec (phasor (x b) * rel (x b) (d b))) p), fun p => ?_, ?_⟩
  · have h1 := deriv_direction x d a p
    have h2 := (deriv_mulVec yo _ _ (deriv_phasors' x d a ha) p).add (deriv_mulVec yt _ _ (deriv_phasors' x d b hb) p)
    refine HasDerivAt.congr_deriv (h1.mul h2.star) (Eq.symm ?_)
    simp only [move_zero, phasors_eq, Pi.add_apply]
  · have hf := local_value ho ht (x a) (x b) ha
    unfold localFlow at hf ⊢
    simp only at hf
    simp only [add_mulVec]
    rw [local_act ho (x a) (x a) (d a) ha, local_act ht (x a) (x b) (d b) ha, diagonalPart_act, ← parts_add, ← parts_add]
    congr 1
    funext p
    simp only [Pi.add_apply, hf, star_add, Pi.zero_apply]
    ring

/-- The power of a shunt, where the phases are not coupled. -/
theorem shunt_linearises {y : CM s} (hy : Uncoupled y) (x : Nat → Polar s) (a : Nat) (ha : ∀ p, (x a).v p ≠ 0) :
    Linearises (fun x p => phasors x a p * star ((-y.mulVec (phasors x a)) p)) x fun d => (shuntFlow y (x a)).1.mulVec (vec (d a)) := by
  intro d
  refine ⟨fun p => phasor (x a) p * rel (x a) (d a) p * star ((-y.mulVec (phasor (x a))) p) +
    phasor (x a) p * star ((-y.mulVec (phasor (x a) * rel (x a) (d a))) p), fun p => ?_, ?_⟩
  · have h1 := deriv_phasors' x d a ha p
    have h2 := (deriv_mulVec y _ _ (deriv_phasors' x d a ha) p).neg
    refine HasDerivAt.congr_deriv (h1.mul h2.star) (Eq.symm ?_)
    simp only [move_zero, phasors_eq, Pi.mul_apply, Pi.neg_apply]
  · have hn : Uncoupled (-y) := fun p q h => by simp [hy p q h]
    unfold shuntFlow
    simp only [add_mulVec]
    rw [hm_act, diagonalPart_act, ← parts_add]
    congr 1
    funext p
    have h1 : sumRow (scaleCols (hmForm (-y) (phasor (x a)) (phasor (x a))) (x a).v) p =
        ((1 / (x a).v p : ℝ) : ℂ) * (phasor (x a) p * star ((-y).mulVec (phasor (x a)) p)) := by
      rw [← sumRow_hm, sumRow_uncoupled (scaleCols_uncoupled (hm_uncoupled hn _ _) _), sumRow_uncoupled (hm_uncoupled hn _ _)]
      simp only [scaleCols]
      ring
    simp only [Pi.add_apply, h1, sumRow_hm, rel, neg_mulVec, Pi.neg_apply, star_neg]
    ring

theorem shunt_value (y : CM s) (a : Polar s) (p : Fin s.phases) : (shuntFlow y a).2 p = phasor a p * star ((-y.mulVec (phasor a)) p) := by
  show sumRow _ p = _
  rw [sumRow_hm, neg_mulVec]

/-! ## Weights -/

/-- The weights of a complex measurement. -/
noncomputable def weights (vr vi : Fin s.phases → ℝ) : QV s := Sum.elim (fun p => 1 / vr p) (fun p => 1 / vi p)

/-- A Jacobian that does not couple the phases. -/
def Split (j : QM s) : Prop :=
  ∀ p q, p ≠ q → j (.inl p) (.inl q) = 0 ∧ j (.inl p) (.inr q) = 0 ∧ j (.inr p) (.inl q) = 0 ∧ j (.inr p) (.inr q) = 0

theorem timesWeight_split {j : QM s} (hj : Split j) (m : PowerM s) : timesWeight j m = j.transpose * diagonal (weights m.vp m.vq) := by
  ext i k
  rw [mul_diagonal, transpose_apply]
  unfold timesWeight weights
  rcases i with p | p <;> rcases k with q | q <;>
    simp only [fromBlocks_apply₁₁, fromBlocks_apply₁₂, fromBlocks_apply₂₁, fromBlocks_apply₂₂, diagonal_mul, toBlocks₁₁, toBlocks₁₂, toBlocks₂₁,
      toBlocks₂₂, of_apply, Sum.elim_inl, Sum.elim_inr] <;>
    by_cases h : p = q
  · subst h; ring
  · rw [(hj p q h).1, (hj q p (Ne.symm h)).1]; ring
  · subst h; ring
  · rw [(hj p q h).2.2.1, (hj q p (Ne.symm h)).2.2.1]; ring
  · subst h; ring
  · rw [(hj p q h).2.1, (hj q p (Ne.symm h)).2.1]; ring
  · subst h; ring
  · rw [(hj p q h).2.2.2, (hj q p (Ne.symm h)).2.2.2]; ring

theorem jacobian_split {a b : CM s} (ha : Uncoupled a) (hb : Uncoupled b) : Split (jacobian a b) := fun p q h => by
  simp [jacobian, imM, reM, ha p q h, hb p q h]

theorem diagonalPart_split (a b : CV s) : Split (diagonalPart a b) := fun p q h => by simp [diagonalPart, h]

theorem Split.add {a b : QM s} (ha : Split a) (hb : Split b) : Split (a + b) := fun p q h => by
  obtain ⟨h1, h2, h3, h4⟩ := ha p q h
  obtain ⟨g1, g2, g3, g4⟩ := hb p q h
  simp [h1, h2, h3, h4, g1, g2, g3, g4]

theorem neg_uncoupled {a : CM s} (ha : Uncoupled a) : Uncoupled (-a) := fun p q h => by simp [ha p q h]

theorem power_split {yo yt : CM s} (ho : Uncoupled yo) (ht : Uncoupled yt) (a b : Polar s) :
    Split (powerFlow yo yt a b).own ∧ Split (powerFlow yo yt a b).other :=
  ⟨(jacobian_split (hm_uncoupled ho _ _) (scaleCols_uncoupled (hm_uncoupled ho _ _) _)).add (diagonalPart_split _ _),
    jacobian_split (hm_uncoupled ht _ _) (scaleCols_uncoupled (hm_uncoupled ht _ _) _)⟩

theorem local_split {yo yt : CM s} (ho : Uncoupled yo) (ht : Uncoupled yt) (a b : Polar s) :
    Split (localFlow yo yt a b).own ∧ Split (localFlow yo yt a b).other :=
  ⟨(jacobian_split (scaleCols_uncoupled (hm_uncoupled ho _ _) _)
      (scaleCols_uncoupled (scaleCols_uncoupled (hm_uncoupled ho _ _) _) _)).add (diagonalPart_split _ _),
    jacobian_split (scaleCols_uncoupled (hm_uncoupled ht _ _) _) (scaleCols_uncoupled (scaleCols_uncoupled (hm_uncoupled ht _ _) _) _)⟩

theorem timesDiagonal_uncoupled {y : CM s} (hy : Uncoupled y) (u : CV s) : Uncoupled (timesDiagonal y u) := fun p q h => by
  simp [timesDiagonal, hy p q h]

theorem global_split {yo yt : CM s} (ho : Uncoupled yo) (ht : Uncoupled yt) (a b : Polar s) :
    Split (globalFlow yo yt a b).own ∧ Split (globalFlow yo yt a b).other :=
  ⟨jacobian_split (neg_uncoupled (timesDiagonal_uncoupled ho _)) (scaleCols_uncoupled (timesDiagonal_uncoupled ho _) _),
    jacobian_split (neg_uncoupled (timesDiagonal_uncoupled ht _)) (scaleCols_uncoupled (timesDiagonal_uncoupled ht _) _)⟩

theorem shunt_split {y : CM s} (hy : Uncoupled y) (a : Polar s) : Split (shuntFlow y a).1 :=
  (jacobian_split (hm_uncoupled (neg_uncoupled hy) _ _) (scaleCols_uncoupled (hm_uncoupled (neg_uncoupled hy) _ _) _)).add (diagonalPart_split _ _)

/-! ## Readings -/

/-- What a reading adds to the weighted product of deviations and slopes. -/
noncomputable def Reading.pair (x d e : Nat → Polar s) (R : Reading s) : ℝ := R.misfit x d * R.slope x e / R.var

theorem complex_slope {f : (Nat → Polar s) → CV s} {x : Nat → Polar s} {J : (Nat → Polar s) → QV s} (h : Linearises f x J)
    (d : Nat → Polar s) (p : Fin s.phases) (a b : ℝ) :
    Reading.slope ⟨fun x => (f x p).re, a, b⟩ x d = J d (.inl p) ∧ Reading.slope ⟨fun x => (f x p).im, a, b⟩ x d = J d (.inr p) := by
  obtain ⟨z, h1, h2⟩ := h d
  rw [h2]
  unfold Reading.slope
  simp only
  have e1 : HasDerivAt (fun t => (f (move x d t) p).re) (z p).re 0 := Complex.reCLM.hasFDerivAt.comp_hasDerivAt (0 : ℝ) (h1 p)
  have e2 : HasDerivAt (fun t => (f (move x d t) p).im) (z p).im 0 := Complex.imCLM.hasFDerivAt.comp_hasDerivAt (0 : ℝ) (h1 p)
  exact ⟨e1.deriv, e2.deriv⟩

theorem complex_misfit {f : (Nat → Polar s) → CV s} {x : Nat → Polar s} {J : (Nat → Polar s) → QV s} (h : Linearises f x J)
    (d : Nat → Polar s) (value : CV s) (p : Fin s.phases) (b : ℝ) :
    Reading.misfit ⟨fun x => (f x p).re, (value p).re, b⟩ x d = (parts (value - f x) - J d) (.inl p) ∧
    Reading.misfit ⟨fun x => (f x p).im, (value p).im, b⟩ x d = (parts (value - f x) - J d) (.inr p) := by
  unfold Reading.misfit
  rw [(complex_slope h d p _ _).1, (complex_slope h d p _ _).2]
  simp [parts]

theorem sum_complex (f : (Nat → Polar s) → CV s) (value : CV s) (vr vi : Fin s.phases → ℝ) (g : Reading s → ℝ) :
    ((complexReadings f value vr vi).map g).sum =
      ∑ p, (g ⟨fun x => (f x p).re, (value p).re, vr p⟩ + g ⟨fun x => (f x p).im, (value p).im, vi p⟩) := by
  unfold complexReadings
  rw [Fin.sum_univ_def]
  induction List.finRange s.phases with
  | nil => rfl
  | cons a l ih =>
    rw [List.flatMap_cons, List.map_append, List.sum_append, ih, List.map_cons, List.sum_cons]
    simp

theorem pair_complex {f : (Nat → Polar s) → CV s} {x : Nat → Polar s} {J : (Nat → Polar s) → QV s} (h : Linearises f x J)
    (d e : Nat → Polar s) (value : CV s) (vr vi : Fin s.phases → ℝ) :
    ((complexReadings f value vr vi).map (Reading.pair x d e)).sum =
      J e ⬝ᵥ (diagonal (weights vr vi)).mulVec (parts (value - f x) - J d) := by
  rw [sum_complex]
  unfold Reading.pair dotProduct
  rw [Fintype.sum_sum_type, ← Finset.sum_add_distrib]
  refine Finset.sum_congr rfl fun p _ => ?_
  rw [(complex_slope h e p _ _).1, (complex_slope h e p _ _).2, (complex_misfit h d value p _).1, (complex_misfit h d value p _).2,
    mulVec_diagonal, mulVec_diagonal]
  simp only [weights, Sum.elim_inl, Sum.elim_inr]
  ring

end PGM.NewtonSe
