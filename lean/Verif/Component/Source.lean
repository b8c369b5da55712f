import Verif.Common.Sequence
import Mathlib.Analysis.SpecialFunctions.Complex.Circle
import Mathlib.Analysis.SpecialFunctions.Sqrt

/-!
# Sources: reference impedance and short-circuit voltage factor (property C30)

Prefix of all paths: `P/` = `/repo/power_grid_model_c/power_grid_model/include/power_grid_model/`. All numbers are exact;
`Option` is the value or NaN.
-/

namespace PGM.Component

/-- `base_power_3p`, `P/common/common.hpp` line 93. -/
def basePower : ℝ := 1000000

/-- Members of `Source` that determine its parameters, `P/component/source.hpp`. -/
structure SourceData where
  uRef : Option ℝ
  uRefAngle : ℝ
  sk : ℝ
  rxRatio : ℝ
  z01Ratio : ℝ

/-- `Source` constructor, `P/component/source.hpp` lines 32-38, with the defaults of `P/common/common.hpp`. -/
noncomputable def mkSource (uRef angle sk rx z01 : Option ℝ) : SourceData :=
  ⟨uRef, angle.getD 0, sk.getD 10000000000, rx.getD (1 / 10), z01.getD 1⟩

/-- `Source::math_param`, lines 40-48. -/
noncomputable def sourceParam (c : SourceData) : ℂ × ℂ :=
  let zAbs := basePower / c.sk
  let x1 := zAbs / Real.sqrt (c.rxRatio * c.rxRatio + 1)
  let r1 := x1 * c.rxRatio
  let y1 : ℂ := 1 / (⟨r1, x1⟩ : ℂ)
  (y1, y1 / c.z01Ratio)

/-- `ShortCircuitVoltageScaling`, `P/common/enum.hpp`. -/
inductive VoltageScaling | minimum | maximum
deriving DecidableEq

open Classical in
/-- `voltage_scaling_c` in `Source::calc_param`, lines 73-84. -/
noncomputable def cFactor (uRated : ℝ) (s : VoltageScaling) : ℝ :=
  if s = .maximum then 11 / 10 else if uRated ≤ 1000 then 95 / 100 else 1

/-- `Source::calc_param` for a short circuit, lines 73-84. -/
noncomputable def sourceShortCircuit (c : SourceData) (uRated : ℝ) (s : VoltageScaling) : ℂ :=
  cFactor uRated s * Complex.exp (Complex.I * c.uRefAngle)

/-- `Source::calc_param`, line 64: the reference voltage of a power flow; `none` is NaN. -/
noncomputable def sourceVoltage (c : SourceData) : Option ℂ :=
  c.uRef.map fun u => u * Complex.exp (Complex.I * c.uRefAngle)

/-! ## Specification -/

/-- An impedance behind a source in per unit (base 1 MVA at rated voltage) has short-circuit power `sk` if the current of a
short circuit at 1 p.u. is `sk / 1e6`. -/
def HasShortCircuitPower (z : ℂ) (sk : ℝ) : Prop := ‖1 / z‖ = sk / 1000000

/-- The given R/X ratio. -/
def HasRxRatio (z : ℂ) (rx : ℝ) : Prop := z.re = rx * z.im ∧ 0 < z.im

/-- The voltage factor table of IEC 60909 (10 % tolerance at low voltage), as printed in the source. -/
def IECFactor (uRated : ℝ) (s : VoltageScaling) (f : ℝ) : Prop :=
  (s = .maximum ∧ f = 1.1) ∨ (s = .minimum ∧ uRated ≤ 1000 ∧ f = 0.95) ∨ (s = .minimum ∧ 1000 < uRated ∧ f = 1)

/-! ## C30 -/

theorem sqrt_pos_rx (rx : ℝ) : 0 < Real.sqrt (rx * rx + 1) :=
  Real.sqrt_pos.mpr (by nlinarith [mul_self_nonneg rx])

/-- C30: positive sequence. -/
theorem source_positive_sequence (c : SourceData) (hs : 0 < c.sk) :
    ∃ z1 : ℂ, (sourceParam c).1 = 1 / z1 ∧ HasShortCircuitPower z1 c.sk ∧ HasRxRatio z1 c.rxRatio := by
  have hq := sqrt_pos_rx c.rxRatio
  have hx : 0 < basePower / c.sk / Real.sqrt (c.rxRatio * c.rxRatio + 1) := by
    unfold basePower; positivity
  refine ⟨_, rfl, ?_, ?_⟩
  · unfold HasShortCircuitPower
    rw [norm_div, norm_one, Complex.norm_def, Complex.normSq_mk]
    have hsq := Real.mul_self_sqrt (show 0 ≤ c.rxRatio * c.rxRatio + 1 by nlinarith [mul_self_nonneg c.rxRatio])
    have e : basePower / c.sk / Real.sqrt (c.rxRatio * c.rxRatio + 1) * c.rxRatio *
        (basePower / c.sk / Real.sqrt (c.rxRatio * c.rxRatio + 1) * c.rxRatio) +
        basePower / c.sk / Real.sqrt (c.rxRatio * c.rxRatio + 1) *
        (basePower / c.sk / Real.sqrt (c.rxRatio * c.rxRatio + 1)) = (basePower / c.sk) * (basePower / c.sk) := by
      have hqne := hq.ne'
      have hsne := hs.ne'
      generalize hg : Real.sqrt (c.rxRatio * c.rxRatio + 1) = q at *
      field_simp
      linear_combination (-basePower ^ 2) * hsq
    rw [e, Real.sqrt_mul_self (by unfold basePower; positivity)]
    unfold basePower
    field_simp
  · unfold HasRxRatio
    exact ⟨mul_comm _ _, hx⟩

/-- C30: zero sequence: the impedance is that of the positive sequence times the given ratio. -/
theorem source_zero_sequence (c : SourceData) (hs : 0 < c.sk) (hz : 0 < c.z01Ratio) :
    ∃ z1 z0 : ℂ, (sourceParam c).1 = 1 / z1 ∧ (sourceParam c).2 = 1 / z0 ∧ z0 = c.z01Ratio * z1 ∧
      HasShortCircuitPower z0 (c.sk / c.z01Ratio) ∧ HasRxRatio z0 c.rxRatio := by
  obtain ⟨z1, h1, h2, h3⟩ := source_positive_sequence c hs
  have h0 : (sourceParam c).2 = (sourceParam c).1 / c.z01Ratio := rfl
  refine ⟨z1, c.z01Ratio * z1, h1, ?_, rfl, ?_, ?_⟩
  · rw [h0, h1]
    rw [div_div, mul_comm]
  · unfold HasShortCircuitPower at *
    rw [show (1 / ((c.z01Ratio : ℂ) * z1)) = (1 / (c.z01Ratio : ℂ)) * (1 / z1) by
      rw [div_mul_div_comm, one_mul], norm_mul, h2, norm_div, norm_one, Complex.norm_real, Real.norm_eq_abs, abs_of_pos hz]
    ring
  · unfold HasRxRatio at *
    simp only [Complex.mul_re, Complex.mul_im, Complex.ofReal_re, Complex.ofReal_im, zero_mul, sub_zero, add_zero]
    exact ⟨by rw [h3.1]; ring, mul_pos hz h3.2⟩

/-- C30: omitted data are replaced by 10 GVA, R/X = 0.1, Z0/Z1 = 1 and angle 0; given data are used. -/
theorem source_defaults (u : Option ℝ) (sk rx z01 angle : ℝ) :
    mkSource u none none none none = ⟨u, 0, 10000000000, 1 / 10, 1⟩ ∧
    mkSource u (some angle) (some sk) (some rx) (some z01) = ⟨u, angle, sk, rx, z01⟩ := ⟨rfl, rfl⟩

/-- C30: the voltage behind the impedance in a short-circuit calculation has the IEC 60909 factor as magnitude, which depends
on the rated voltage and the option only, and the reference angle of the source; the reference magnitude is not used. -/
theorem source_short_circuit (c : SourceData) (uRated : ℝ) (s : VoltageScaling) :
    ∃ f, IECFactor uRated s f ∧ ‖sourceShortCircuit c uRated s‖ = f ∧
      sourceShortCircuit c uRated s = f * (Real.cos c.uRefAngle + Real.sin c.uRefAngle * Complex.I) := by
  have hf : IECFactor uRated s (cFactor uRated s) := by
    unfold IECFactor cFactor
    cases s
    · by_cases h : uRated ≤ 1000
      · right; left
        simp [h]; norm_num
      · right; right
        simp [h, not_le.mp h]
    · left; simp; norm_num
  have hpos : 0 ≤ cFactor uRated s := by
    rcases hf with ⟨-, h⟩ | ⟨-, -, h⟩ | ⟨-, -, h⟩ <;> rw [h] <;> norm_num
  have hexp : Complex.exp (Complex.I * c.uRefAngle) = Real.cos c.uRefAngle + Real.sin c.uRefAngle * Complex.I := by
    rw [mul_comm, Complex.exp_mul_I, Complex.ofReal_cos, Complex.ofReal_sin]
  refine ⟨_, hf, ?_, ?_⟩
  · unfold sourceShortCircuit
    rw [norm_mul, mul_comm Complex.I, Complex.norm_exp_ofReal_mul_I, mul_one, Complex.norm_real, Real.norm_eq_abs,
      abs_of_nonneg hpos]
  · unfold sourceShortCircuit
    rw [hexp]

/-- C30: in a power flow the reference voltage has the given magnitude and angle. -/
theorem source_power_flow (c : SourceData) (u : ℝ) (hu : 0 ≤ u) (h : c.uRef = some u) :
    ∃ v, sourceVoltage c = some v ∧ ‖v‖ = u ∧
      v = u * (Real.cos c.uRefAngle + Real.sin c.uRefAngle * Complex.I) := by
  refine ⟨_, by unfold sourceVoltage; rw [h]; rfl, ?_, ?_⟩
  · rw [norm_mul, mul_comm Complex.I, Complex.norm_exp_ofReal_mul_I, mul_one, Complex.norm_real, Real.norm_eq_abs,
      abs_of_nonneg hu]
  · rw [mul_comm Complex.I, Complex.exp_mul_I, Complex.ofReal_cos, Complex.ofReal_sin]

/-- Non-vacuity: 1 MVA and R/X = 3/4 give an impedance of 0.6 + 0.8i. -/
example : (sourceParam ⟨some 1, 0, 1000000, 3 / 4, 2⟩).1 = 1 / (⟨3 / 5, 4 / 5⟩ : ℂ) := by
  have h : Real.sqrt (3 / 4 * (3 / 4) + 1) = 5 / 4 := by
    rw [show (3 / 4 * (3 / 4) + 1 : ℝ) = (5 / 4) ^ 2 by norm_num]
    exact Real.sqrt_sq (by norm_num)
  simp only [sourceParam, h, basePower]
  norm_num

end PGM.Component
