import Mathlib.Analysis.SpecialFunctions.Pow.Real
import Mathlib.LinearAlgebra.Matrix.NonsingularInverse
import Mathlib.LinearAlgebra.Matrix.Notation
import Mathlib.Analysis.Complex.Basic
import Mathlib.Tactic.FieldSimp
import Mathlib.Tactic.LinearCombination

/-!
# Symmetrical components

Prefix of all paths: `P/` = `/repo/power_grid_model_c/power_grid_model/include/power_grid_model/`.
-/

namespace PGM

/-- A three-phase value, `ComplexValue<asymmetric_t>`. -/
abbrev C3 := Fin 3 → ℂ

/-- A three-phase tensor, `ComplexTensor<asymmetric_t>`. -/
abbrev M3 := Matrix (Fin 3) (Fin 3) ℂ

/-- `a`, `P/common/common.hpp` line 82, with exact arithmetic. -/
noncomputable def a : ℂ := ⟨-1 / 2, Real.sqrt 3 / 2⟩

/-- `a2`, `P/common/common.hpp` line 81. -/
noncomputable def a2 : ℂ := ⟨-1 / 2, -(Real.sqrt 3) / 2⟩

/-- `get_sym_matrix`, `P/common/three_phase_tensor.hpp` lines 449-453. -/
noncomputable def symMatrix : M3 := !![1, 1, 1; 1, a2, a; 1, a, a2]

/-- `get_sym_matrix_inv`, lines 454-459. -/
noncomputable def symMatrixInv : M3 := (3 : ℂ)⁻¹ • !![1, 1, 1; 1, a, a2; 1, a2, a]

/-- `ComplexTensor<asymmetric_t>{s, m}`: diagonal `s`, off-diagonal `m`, `P/common/three_phase_tensor.hpp` (constructor of
`Eigen3Tensor`). -/
def balancedMatrix (s m : ℂ) : M3 := fun i j => if i = j then s else m

/-! ## Specification: the three balanced systems of phasors -/

/-- Zero sequence: the same phasor in every phase. -/
def zeroSeq : C3 := ![1, 1, 1]

/-- Positive sequence: phase b lags phase a by 120 degrees and c by 240. -/
noncomputable def posSeq : C3 := ![1, Complex.exp (-(2 * Real.pi / 3) * Complex.I), Complex.exp (-(4 * Real.pi / 3) * Complex.I)]

/-- Negative sequence: phase b leads phase a by 120 degrees and c by 240. -/
noncomputable def negSeq : C3 := ![1, Complex.exp ((2 * Real.pi / 3) * Complex.I), Complex.exp ((4 * Real.pi / 3) * Complex.I)]

/-! ## Facts -/

theorem a_sq : a * a = a2 := by
  have h : Real.sqrt 3 * Real.sqrt 3 = 3 := Real.mul_self_sqrt (by norm_num)
  apply Complex.ext
  · simp [a, a2]; linarith
  · simp [a, a2]; ring

theorem a_add : 1 + a + a2 = 0 := by
  apply Complex.ext
  · simp [a, a2]; norm_num
  · simp [a, a2]; ring

theorem a_mul_a2 : a * a2 = 1 := by
  have h : Real.sqrt 3 * Real.sqrt 3 = 3 := Real.mul_self_sqrt (by norm_num)
  apply Complex.ext
  · simp [a, a2]; linarith
  · simp [a, a2]; ring

theorem a2_mul_a2 : a2 * a2 = a := by
  have : a2 = a * a := a_sq.symm
  calc a2 * a2 = a * (a * a2) := by rw [this]; ring
    _ = a := by rw [a_mul_a2, mul_one]

theorem exp_third : Complex.exp ((2 * Real.pi / 3) * Complex.I) = a := by
  have h : (2 * Real.pi / 3 : ℂ) = ((2 * Real.pi / 3 : ℝ) : ℂ) := by push_cast; rfl
  have e : (2 * Real.pi / 3 : ℝ) = Real.pi - Real.pi / 3 := by ring
  apply Complex.ext
  · rw [h, Complex.exp_ofReal_mul_I_re, e, Real.cos_pi_sub, Real.cos_pi_div_three]; simp [a]; norm_num
  · rw [h, Complex.exp_ofReal_mul_I_im, e, Real.sin_pi_sub, Real.sin_pi_div_three]; simp [a]

theorem posSeq_eq : posSeq = ![1, a2, a] := by
  have h1 : Complex.exp (-(2 * Real.pi / 3) * Complex.I) = a2 := by
    rw [neg_mul, Complex.exp_neg, exp_third]
    exact (eq_inv_of_mul_eq_one_right a_mul_a2).symm
  have h2 : Complex.exp (-(4 * Real.pi / 3) * Complex.I) = a := by
    have : (-(4 * Real.pi / 3) * Complex.I : ℂ) = -(2 * Real.pi / 3) * Complex.I + -(2 * Real.pi / 3) * Complex.I := by
      ring
    rw [this, Complex.exp_add, h1, a2_mul_a2]
  unfold posSeq
  rw [h1, h2]

theorem negSeq_eq : negSeq = ![1, a, a2] := by
  have h2 : Complex.exp ((4 * Real.pi / 3) * Complex.I) = a2 := by
    have : ((4 * Real.pi / 3) * Complex.I : ℂ) = (2 * Real.pi / 3) * Complex.I + (2 * Real.pi / 3) * Complex.I := by
      ring
    rw [this, Complex.exp_add, exp_third, a_sq]
  unfold negSeq
  rw [exp_third, h2]

theorem inv_zero : symMatrixInv.mulVec zeroSeq = ![1, 0, 0] := by
  have h := a_add
  funext i
  simp only [symMatrixInv, zeroSeq, Matrix.mulVec, dotProduct, Fin.sum_univ_three]
  fin_cases i
  · simp; norm_num
  · simp; linear_combination (3⁻¹ : ℂ) * h
  · simp; linear_combination (3⁻¹ : ℂ) * h

theorem inv_pos : symMatrixInv.mulVec posSeq = ![0, 1, 0] := by
  have h := a_add
  have h1 := a_sq
  have h2 := a_mul_a2
  have h3 := a2_mul_a2
  rw [posSeq_eq]
  funext i
  simp only [symMatrixInv, Matrix.mulVec, dotProduct, Fin.sum_univ_three]
  fin_cases i
  · simp; linear_combination (3⁻¹ : ℂ) * h
  · simp; linear_combination (2 / 3 : ℂ) * h2
  · simp; linear_combination (3⁻¹ : ℂ) * (h + h1 + h3)

theorem inv_neg : symMatrixInv.mulVec negSeq = ![0, 0, 1] := by
  have h := a_add
  have h1 := a_sq
  have h2 := a_mul_a2
  have h3 := a2_mul_a2
  rw [negSeq_eq]
  funext i
  simp only [symMatrixInv, Matrix.mulVec, dotProduct, Fin.sum_univ_three]
  fin_cases i
  · simp; linear_combination (3⁻¹ : ℂ) * h
  · simp; linear_combination (3⁻¹ : ℂ) * (h + h1 + h3)
  · simp; linear_combination (2 / 3 : ℂ) * h2

/-- `dot(sym_matrix, y012, sym_matrix_inv)` has the three balanced systems as eigenvectors. -/
theorem transform_zero (y0 y1 y2 : ℂ) :
    (symMatrix * Matrix.diagonal ![y0, y1, y2] * symMatrixInv).mulVec zeroSeq = y0 • zeroSeq := by
  rw [← Matrix.mulVec_mulVec, inv_zero, ← Matrix.mulVec_mulVec]
  funext i
  simp only [symMatrix, zeroSeq, Matrix.mulVec, dotProduct, Fin.sum_univ_three, Matrix.diagonal_apply]
  fin_cases i <;> simp

theorem transform_pos (y0 y1 y2 : ℂ) :
    (symMatrix * Matrix.diagonal ![y0, y1, y2] * symMatrixInv).mulVec posSeq = y1 • posSeq := by
  rw [← Matrix.mulVec_mulVec, inv_pos, ← Matrix.mulVec_mulVec, posSeq_eq]
  funext i
  simp only [symMatrix, Matrix.mulVec, dotProduct, Fin.sum_univ_three, Matrix.diagonal_apply]
  fin_cases i <;> simp [mul_comm]

theorem transform_neg (y0 y1 y2 : ℂ) :
    (symMatrix * Matrix.diagonal ![y0, y1, y2] * symMatrixInv).mulVec negSeq = y2 • negSeq := by
  rw [← Matrix.mulVec_mulVec, inv_neg, ← Matrix.mulVec_mulVec, negSeq_eq]
  funext i
  simp only [symMatrix, Matrix.mulVec, dotProduct, Fin.sum_univ_three, Matrix.diagonal_apply]
  fin_cases i <;> simp [mul_comm]

/-- The matrix with `(2y1+y0)/3` on and `(y0-y1)/3` off the diagonal. -/
theorem balanced_zero (y0 y1 : ℂ) :
    (balancedMatrix ((2 * y1 + y0) / 3) ((y0 - y1) / 3)).mulVec zeroSeq = y0 • zeroSeq := by
  funext i
  simp only [balancedMatrix, zeroSeq, Matrix.mulVec, dotProduct, Fin.sum_univ_three]
  fin_cases i <;> simp <;> ring

theorem balanced_sum_zero (y0 y1 : ℂ) (u : C3) (h : u 0 + u 1 + u 2 = 0) :
    (balancedMatrix ((2 * y1 + y0) / 3) ((y0 - y1) / 3)).mulVec u = y1 • u := by
  funext i
  simp only [balancedMatrix, Matrix.mulVec, dotProduct, Fin.sum_univ_three]
  fin_cases i <;> simp <;> linear_combination ((y0 - y1) / 3) * h

theorem posSeq_sum : posSeq 0 + posSeq 1 + posSeq 2 = 0 := by
  rw [posSeq_eq]; simpa [add_assoc, add_comm a2 a] using a_add

theorem negSeq_sum : negSeq 0 + negSeq 1 + negSeq 2 = 0 := by
  rw [negSeq_eq]; simpa using a_add

/-- Every three-phase value is a combination of the three balanced systems. -/
theorem seq_complete (u : C3) : ∃ u0 u1 u2 : ℂ, u = u0 • zeroSeq + u1 • posSeq + u2 • negSeq := by
  have h := a_add
  have h1 := a_sq
  have h2 := a_mul_a2
  have h3 := a2_mul_a2
  refine ⟨(u 0 + u 1 + u 2) / 3, (u 0 + a * u 1 + a2 * u 2) / 3, (u 0 + a2 * u 1 + a * u 2) / 3, ?_⟩
  rw [posSeq_eq, negSeq_eq]
  funext i
  simp only [zeroSeq, Pi.add_apply, Pi.smul_apply, smul_eq_mul]
  fin_cases i
  · simp; linear_combination (-(u 1) / 3 - u 2 / 3) * h
  · simp; linear_combination (-(u 0) / 3 - u 2 / 3) * h - 2 / 3 * u 1 * h2 - u 2 / 3 * (h1 + h3)
  · simp; linear_combination (-(u 0) / 3 - u 1 / 3) * h - 2 / 3 * u 2 * h2 - u 1 / 3 * (h1 + h3)

end PGM
