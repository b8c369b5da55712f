import Verif.Component.Tap
import Verif.Component.Branch

/-!
# Transformer impedances and the star equivalent of three-winding transformers (property C29)

Prefix of all paths: `P/` = `/repo/power_grid_model_c/power_grid_model/include/power_grid_model/`. All numbers are exact reals.
-/

namespace PGM.Component

/-- Data of a two-winding transformer that its impedance depends on, after tap adjustment of `uk` and `pk`. -/
structure TransformerData where
  u1 : ℝ
  u2 : ℝ
  sn : ℝ
  uk : ℝ
  pk : ℝ
  i0 : ℝ
  p0 : ℝ
  u1Rated : ℝ
  u2Rated : ℝ

/-- `z_series` in `transformer_params`, `P/component/transformer.hpp` lines 201-218. -/
noncomputable def seriesImpedance (d : TransformerData) : ℂ :=
  let sign : ℝ := if d.uk ≥ 0 then 1 else -1
  let zAbs := |d.uk| * d.u2 * d.u2 / d.sn
  let r := d.pk * d.u2 * d.u2 / d.sn / d.sn
  let sq := zAbs * zAbs - r * r
  ⟨r, sign * (if sq > 0 then Real.sqrt sq else 0)⟩

/-- `y_shunt` in `transformer_params` before division by the base, lines 222-229. -/
noncomputable def shuntAdmittance (d : TransformerData) : ℂ :=
  let yAbs := d.i0 * d.sn / d.u2 / d.u2
  let g := d.p0 / d.u2 / d.u2
  let sq := yAbs * yAbs - g * g
  ⟨g, if sq > 0 then -Real.sqrt sq else 0⟩

/-- `k` in `transformer_params`, lines 184-196. -/
noncomputable def tapRatio (d : TransformerData) : ℝ := (d.u1 / d.u2) / (d.u1Rated / d.u2Rated)

/-- Data of a three-winding transformer that the star equivalent depends on. -/
structure ThreeWinding where
  u1 : ℝ
  u2 : ℝ
  u3 : ℝ
  sn1 : ℝ
  sn2 : ℝ
  sn3 : ℝ
  /-- short-circuit voltages between windings 1-2, 1-3, 2-3: nominal, at `tap_min`, at `tap_max` -/
  uk : Fin 3 → ℝ × ℝ × ℝ
  /-- short-circuit losses, likewise -/
  pk : Fin 3 → ℝ × ℝ × ℝ
  i0 : ℝ
  p0 : ℝ
  /-- `tap_side_`: 0, 1 or 2 -/
  tapSide : Nat
  tapPos : Int
  tapMin : Int
  tapMax : Int
  tapNom : Int
  tapSize : ℝ
  u1Rated : ℝ
  u2Rated : ℝ
  u3Rated : ℝ

/-- `tap_adjust_impedance` applied to one of the triples, `P/component/three_winding_transformer.hpp` lines 226-231. -/
noncomputable def ThreeWinding.adjusted (c : ThreeWinding) (x : ℝ × ℝ × ℝ) : ℝ :=
  tapAdjust (c.tapPos : ℝ) c.tapMin c.tapMax c.tapNom x.1 x.2.1 x.2.2

/-- `tap_direction_`, lines 76-77 of the constructor. -/
def ThreeWinding.direction (c : ThreeWinding) : Int := if c.tapMax > c.tapMin then 1 else -1

/-- The voltages with the off-nominal tap, lines 305-318. -/
noncomputable def ThreeWinding.tapped (c : ThreeWinding) : ℝ × ℝ × ℝ :=
  let shift : ℝ := c.direction * (c.tapPos - c.tapNom) * c.tapSize
  if c.tapSide = 0 then (c.u1 + shift, c.u2, c.u3)
  else if c.tapSide = 1 then (c.u1, c.u2 + shift, c.u3)
  else (c.u1, c.u2, c.u3 + shift)

/-- `calculate_uk`, lines 224-248. -/
noncomputable def ThreeWinding.starUk (c : ThreeWinding) : ℝ × ℝ × ℝ :=
  let uk12 := c.adjusted (c.uk 0) * c.sn1 / min c.sn1 c.sn2
  let uk13 := c.adjusted (c.uk 1) * c.sn1 / min c.sn1 c.sn3
  let uk23 := c.adjusted (c.uk 2) * c.sn1 / min c.sn2 c.sn3
  let t1 := 1 / 2 * (uk12 + uk13 - uk23)
  let t2 := 1 / 2 * (uk12 + uk23 - uk13)
  let t3 := 1 / 2 * (uk13 + uk23 - uk12)
  (t1, t2 * (c.sn2 / c.sn1), t3 * (c.sn3 / c.sn1))

/-- `calculate_pk`, lines 250-274. -/
noncomputable def ThreeWinding.starPk (c : ThreeWinding) : ℝ × ℝ × ℝ :=
  let pk12 := c.adjusted (c.pk 0) * (c.sn1 / min c.sn1 c.sn2) * (c.sn1 / min c.sn1 c.sn2)
  let pk13 := c.adjusted (c.pk 1) * (c.sn1 / min c.sn1 c.sn3) * (c.sn1 / min c.sn1 c.sn3)
  let pk23 := c.adjusted (c.pk 2) * (c.sn1 / min c.sn2 c.sn3) * (c.sn1 / min c.sn2 c.sn3)
  let t1 := 1 / 2 * (pk12 + pk13 - pk23)
  let t2 := 1 / 2 * (pk12 + pk23 - pk13)
  let t3 := 1 / 2 * (pk13 + pk23 - pk12)
  (t1, t2 * (c.sn2 / c.sn1) * (c.sn2 / c.sn1), t3 * (c.sn3 / c.sn1) * (c.sn3 / c.sn1))

/-- `convert_to_two_winding_transformers`, lines 303-417; the tap fields of the three transformers are zero, so `uk` and `pk`
are not adjusted again. -/
noncomputable def ThreeWinding.star (c : ThreeWinding) : TransformerData × TransformerData × TransformerData :=
  let (u1, u2, u3) := c.tapped
  let (uk1, uk2, uk3) := c.starUk
  let (pk1, pk2, pk3) := c.starPk
  (⟨u1, u1, c.sn1, uk1, pk1, c.i0, c.p0, c.u1Rated, c.u1Rated⟩,
   ⟨u2, u1, c.sn2, uk2, pk2, 0, 0, c.u2Rated, c.u1Rated⟩,
   ⟨u3, u1, c.sn3, uk3, pk3, 0, 0, c.u3Rated, c.u1Rated⟩)

/-! ## Specification

Short-circuit test between two windings with rated powers `sa` and `sb`, referred to a winding with voltage `u`: the
impedance has resistance `pk · u² / s²` and absolute value `uk · u² / s`, where `s` is the smaller rated power. -/

/-- The measured losses. -/
def LossesAre (z : ℂ) (u sa sb pk : ℝ) : Prop := z.re = pk * u ^ 2 / (min sa sb) ^ 2

/-- The measured short-circuit voltage. -/
def ShortCircuitVoltageIs (z : ℂ) (u sa sb uk : ℝ) : Prop := ‖z‖ = uk * u ^ 2 / min sa sb

/-- The tapped voltage of winding 1, to which the star is referred. -/
noncomputable def ThreeWinding.refU (c : ThreeWinding) : ℝ :=
  if c.tapSide = 0 then c.u1 + (if c.tapMax > c.tapMin then 1 else -1) * (c.tapPos - c.tapNom) * c.tapSize else c.u1

/-! ## Two windings -/

/-- The series impedance of a transformer reproduces its losses and short-circuit voltage, the reactance has the sign of
`uk`; provided that the losses do not exceed the short-circuit power. -/
theorem series_reproduces (d : TransformerData) (hs : 0 < d.sn) (hle : |d.pk| ≤ |d.uk| * d.sn) :
    (seriesImpedance d).re = d.pk * d.u2 ^ 2 / d.sn ^ 2 ∧ ‖seriesImpedance d‖ = |d.uk| * d.u2 ^ 2 / d.sn ∧
      0 ≤ d.uk * (seriesImpedance d).im := by
  have hsne : d.sn ≠ 0 := hs.ne'
  have hsq : 0 ≤ |d.uk| * d.u2 * d.u2 / d.sn * (|d.uk| * d.u2 * d.u2 / d.sn) -
      d.pk * d.u2 * d.u2 / d.sn / d.sn * (d.pk * d.u2 * d.u2 / d.sn / d.sn) := by
    have h1 : d.pk ^ 2 ≤ (|d.uk| * d.sn) ^ 2 := by
      rw [← sq_abs d.pk]
      exact pow_le_pow_left₀ (abs_nonneg _) hle 2
    have e : |d.uk| * d.u2 * d.u2 / d.sn * (|d.uk| * d.u2 * d.u2 / d.sn) -
        d.pk * d.u2 * d.u2 / d.sn / d.sn * (d.pk * d.u2 * d.u2 / d.sn / d.sn) =
        ((|d.uk| * d.sn) ^ 2 - d.pk ^ 2) * (d.u2 ^ 2 / d.sn ^ 2) ^ 2 := by
      field_simp
    rw [e]
    exact mul_nonneg (by linarith) (by positivity)
  have hroot : (if |d.uk| * d.u2 * d.u2 / d.sn * (|d.uk| * d.u2 * d.u2 / d.sn) -
      d.pk * d.u2 * d.u2 / d.sn / d.sn * (d.pk * d.u2 * d.u2 / d.sn / d.sn) > 0 then
      Real.sqrt (|d.uk| * d.u2 * d.u2 / d.sn * (|d.uk| * d.u2 * d.u2 / d.sn) -
      d.pk * d.u2 * d.u2 / d.sn / d.sn * (d.pk * d.u2 * d.u2 / d.sn / d.sn)) else 0) =
      Real.sqrt (|d.uk| * d.u2 * d.u2 / d.sn * (|d.uk| * d.u2 * d.u2 / d.sn) -
      d.pk * d.u2 * d.u2 / d.sn / d.sn * (d.pk * d.u2 * d.u2 / d.sn / d.sn)) := by
    split
    · rfl
    · rename_i h
      rw [show |d.uk| * d.u2 * d.u2 / d.sn * (|d.uk| * d.u2 * d.u2 / d.sn) -
        d.pk * d.u2 * d.u2 / d.sn / d.sn * (d.pk * d.u2 * d.u2 / d.sn / d.sn) = 0 from le_antisymm (not_lt.mp h) hsq]
      simp
  unfold seriesImpedance
  simp only [hroot]
  refine ⟨by field_simp, ?_, ?_⟩
  · rw [Complex.norm_def, Complex.normSq_mk]
    have h2 := Real.mul_self_sqrt hsq
    have hsign : ∀ x : ℝ, ((if d.uk ≥ 0 then (1 : ℝ) else -1) * x) * ((if d.uk ≥ 0 then (1 : ℝ) else -1) * x) = x * x := by
      intro x; split <;> ring
    rw [hsign, h2, add_sub_cancel, Real.sqrt_mul_self]
    · field_simp
    · have := abs_nonneg d.uk
      rw [mul_assoc]
      exact div_nonneg (mul_nonneg this (mul_self_nonneg _)) hs.le
  · split
    · rename_i h
      rw [one_mul]
      exact mul_nonneg h (Real.sqrt_nonneg _)
    · rename_i h
      have : d.uk ≤ 0 := le_of_lt (not_le.mp h)
      rw [neg_one_mul, mul_neg, ← neg_mul]
      exact mul_nonneg (by linarith) (Real.sqrt_nonneg _)

/-- The shunt of a transformer reproduces its no-load losses and current (and is inductive), provided that the losses do not
exceed the no-load power. -/
theorem shunt_reproduces (d : TransformerData) (hs : 0 < d.sn) (hu : d.u2 ≠ 0) (hi : 0 ≤ d.i0) (hle : |d.p0| ≤ d.i0 * d.sn) :
    (shuntAdmittance d).re = d.p0 / d.u2 ^ 2 ∧ ‖shuntAdmittance d‖ = d.i0 * d.sn / d.u2 ^ 2 ∧
      (shuntAdmittance d).im ≤ 0 := by
  have hsq : 0 ≤ d.i0 * d.sn / d.u2 / d.u2 * (d.i0 * d.sn / d.u2 / d.u2) - d.p0 / d.u2 / d.u2 * (d.p0 / d.u2 / d.u2) := by
    have h1 : d.p0 ^ 2 ≤ (d.i0 * d.sn) ^ 2 := by
      rw [← sq_abs d.p0]
      exact pow_le_pow_left₀ (abs_nonneg _) hle 2
    have e : d.i0 * d.sn / d.u2 / d.u2 * (d.i0 * d.sn / d.u2 / d.u2) - d.p0 / d.u2 / d.u2 * (d.p0 / d.u2 / d.u2) =
        ((d.i0 * d.sn) ^ 2 - d.p0 ^ 2) * (1 / d.u2 ^ 2) ^ 2 := by
      field_simp
    rw [e]
    exact mul_nonneg (by linarith) (by positivity)
  unfold shuntAdmittance
  simp only
  refine ⟨by field_simp, ?_, ?_⟩
  · rw [Complex.norm_def, Complex.normSq_mk]
    have hn : 0 ≤ d.i0 * d.sn / d.u2 / d.u2 := by
      rw [div_div]; exact div_nonneg (mul_nonneg hi hs.le) (mul_self_nonneg _)
    split
    · rw [neg_mul_neg, Real.mul_self_sqrt hsq, add_sub_cancel, Real.sqrt_mul_self hn]
      field_simp
    · rename_i h
      have h0 := le_antisymm (not_lt.mp h) hsq
      rw [mul_zero, add_zero, ← sub_eq_zero.mp h0, Real.sqrt_mul_self hn]
      field_simp
  · split
    · have := Real.sqrt_nonneg (d.i0 * d.sn / d.u2 / d.u2 * (d.i0 * d.sn / d.u2 / d.u2) -
        d.p0 / d.u2 / d.u2 * (d.p0 / d.u2 / d.u2))
      linarith
    · exact le_refl _

/-! ## C29 -/

theorem tapped_fst (c : ThreeWinding) : c.tapped.1 = c.refU := by
  unfold ThreeWinding.tapped ThreeWinding.refU ThreeWinding.direction
  simp only
  by_cases h0 : c.tapSide = 0
  · simp only [h0, if_true]
    split <;> simp
  · simp only [h0, if_false]
    split <;> rfl

theorem star_fields (c : ThreeWinding) :
    c.star = (⟨c.tapped.1, c.tapped.1, c.sn1, c.starUk.1, c.starPk.1, c.i0, c.p0, c.u1Rated, c.u1Rated⟩,
      ⟨c.tapped.2.1, c.tapped.1, c.sn2, c.starUk.2.1, c.starPk.2.1, 0, 0, c.u2Rated, c.u1Rated⟩,
      ⟨c.tapped.2.2, c.tapped.1, c.sn3, c.starUk.2.2, c.starPk.2.2, 0, 0, c.u3Rated, c.u1Rated⟩) := rfl

/-- The rated powers are positive. -/
def ThreeWinding.Rated (c : ThreeWinding) : Prop := 0 < c.sn1 ∧ 0 < c.sn2 ∧ 0 < c.sn3

/-- C29, losses: the losses between each pair of windings of the star are the given (tap-adjusted) ones, for every tap
position. -/
theorem star_losses (c : ThreeWinding) (h : c.Rated) :
    LossesAre (seriesImpedance c.star.1 + seriesImpedance c.star.2.1) c.refU c.sn1 c.sn2 (c.adjusted (c.pk 0)) ∧
    LossesAre (seriesImpedance c.star.1 + seriesImpedance c.star.2.2) c.refU c.sn1 c.sn3 (c.adjusted (c.pk 1)) ∧
    LossesAre (seriesImpedance c.star.2.1 + seriesImpedance c.star.2.2) c.refU c.sn2 c.sn3 (c.adjusted (c.pk 2)) := by
  obtain ⟨h1, h2, h3⟩ := h
  have m12 : min c.sn1 c.sn2 ≠ 0 := (lt_min h1 h2).ne'
  have m13 : min c.sn1 c.sn3 ≠ 0 := (lt_min h1 h3).ne'
  have m23 : min c.sn2 c.sn3 ≠ 0 := (lt_min h2 h3).ne'
  have n1 := h1.ne'
  have n2 := h2.ne'
  have n3 := h3.ne'
  unfold LossesAre
  rw [star_fields, tapped_fst]
  simp only [seriesImpedance, Complex.add_re, ThreeWinding.starPk]
  refine ⟨?_, ?_, ?_⟩ <;> · field_simp; ring

/-- C29, part of the short-circuit voltages: the short-circuit voltages of the star add up to the given ones, each referred
to its own rated power. This is the claim only if the impedances of the star have the same angle; see
`star_short_circuit_voltage_partial` and `star_short_circuit_voltage_wrong`. -/
theorem star_uk_additive_partial (c : ThreeWinding) (h : c.Rated) :
    c.star.1.uk / c.sn1 + c.star.2.1.uk / c.sn2 = c.adjusted (c.uk 0) / min c.sn1 c.sn2 ∧
    c.star.1.uk / c.sn1 + c.star.2.2.uk / c.sn3 = c.adjusted (c.uk 1) / min c.sn1 c.sn3 ∧
    c.star.2.1.uk / c.sn2 + c.star.2.2.uk / c.sn3 = c.adjusted (c.uk 2) / min c.sn2 c.sn3 := by
  obtain ⟨h1, h2, h3⟩ := h
  have m12 : min c.sn1 c.sn2 ≠ 0 := (lt_min h1 h2).ne'
  have m13 : min c.sn1 c.sn3 ≠ 0 := (lt_min h1 h3).ne'
  have m23 : min c.sn2 c.sn3 ≠ 0 := (lt_min h2 h3).ne'
  have n1 := h1.ne'
  have n2 := h2.ne'
  have n3 := h3.ne'
  rw [star_fields]
  simp only [ThreeWinding.starUk]
  refine ⟨?_, ?_, ?_⟩ <;> · field_simp; ring

/-- A transformer whose losses are `ρ` times its short-circuit power has an impedance with a fixed angle. -/
theorem seriesImpedance_ratio (d : TransformerData) (ρ : ℝ) (hs : 0 < d.sn) (hρ : |ρ| ≤ 1) (hp : d.pk = ρ * d.uk * d.sn) :
    seriesImpedance d = (d.uk / d.sn * d.u2 ^ 2 : ℝ) * ⟨ρ, Real.sqrt (1 - ρ ^ 2)⟩ := by
  have hsne := hs.ne'
  have hρ2 : 0 ≤ 1 - ρ ^ 2 := by
    have : ρ ^ 2 ≤ 1 := by rw [← sq_abs]; exact pow_le_one₀ (abs_nonneg _) hρ
    linarith
  have e : |d.uk| * d.u2 * d.u2 / d.sn * (|d.uk| * d.u2 * d.u2 / d.sn) -
      d.pk * d.u2 * d.u2 / d.sn / d.sn * (d.pk * d.u2 * d.u2 / d.sn / d.sn) =
      (|d.uk| / d.sn * d.u2 ^ 2) ^ 2 * (1 - ρ ^ 2) := by
    have ha : |d.uk| * |d.uk| = d.uk * d.uk := abs_mul_abs_self _
    rw [hp]
    field_simp
    rw [sq_abs]
    ring
  have hroot : (if |d.uk| * d.u2 * d.u2 / d.sn * (|d.uk| * d.u2 * d.u2 / d.sn) -
      d.pk * d.u2 * d.u2 / d.sn / d.sn * (d.pk * d.u2 * d.u2 / d.sn / d.sn) > 0 then
      Real.sqrt (|d.uk| * d.u2 * d.u2 / d.sn * (|d.uk| * d.u2 * d.u2 / d.sn) -
      d.pk * d.u2 * d.u2 / d.sn / d.sn * (d.pk * d.u2 * d.u2 / d.sn / d.sn)) else 0) =
      |d.uk| / d.sn * d.u2 ^ 2 * Real.sqrt (1 - ρ ^ 2) := by
    have hnn : 0 ≤ |d.uk| / d.sn * d.u2 ^ 2 :=
      mul_nonneg (div_nonneg (abs_nonneg _) hs.le) (sq_nonneg _)
    rw [e, Real.sqrt_mul (sq_nonneg _), Real.sqrt_sq hnn]
    split
    · rfl
    · rename_i h
      have h0 : (|d.uk| / d.sn * d.u2 ^ 2) ^ 2 * (1 - ρ ^ 2) = 0 :=
        le_antisymm (not_lt.mp h) (mul_nonneg (sq_nonneg _) hρ2)
      rcases mul_eq_zero.mp h0 with h1 | h1
      · rw [pow_eq_zero_iff (by norm_num)] at h1
        rw [h1, zero_mul]
      · rw [h1, Real.sqrt_zero, mul_zero]
  unfold seriesImpedance
  simp only [hroot]
  apply Complex.ext
  · simp only [Complex.mul_re, Complex.ofReal_re, Complex.ofReal_im, zero_mul, sub_zero]
    rw [hp]; field_simp
  · simp only [Complex.mul_im, Complex.ofReal_re, Complex.ofReal_im, zero_mul, add_zero]
    split
    · rename_i h
      rw [abs_of_nonneg h]; ring
    · rename_i h
      rw [abs_of_neg (not_le.mp h)]; ring

/-- C29, short-circuit voltages: they are the given ones if the ratio of losses to short-circuit power is the same in all
three tests. Full statement: for every impedance data. -/
theorem star_short_circuit_voltage_partial (c : ThreeWinding) (h : c.Rated) (ρ : ℝ) (hρ : |ρ| ≤ 1)
    (h12 : c.adjusted (c.pk 0) = ρ * c.adjusted (c.uk 0) * min c.sn1 c.sn2)
    (h13 : c.adjusted (c.pk 1) = ρ * c.adjusted (c.uk 1) * min c.sn1 c.sn3)
    (h23 : c.adjusted (c.pk 2) = ρ * c.adjusted (c.uk 2) * min c.sn2 c.sn3)
    (hpos : ∀ i, 0 ≤ c.adjusted (c.uk i)) :
    ShortCircuitVoltageIs (seriesImpedance c.star.1 + seriesImpedance c.star.2.1) c.refU c.sn1 c.sn2
      (c.adjusted (c.uk 0)) ∧
    ShortCircuitVoltageIs (seriesImpedance c.star.1 + seriesImpedance c.star.2.2) c.refU c.sn1 c.sn3
      (c.adjusted (c.uk 1)) ∧
    ShortCircuitVoltageIs (seriesImpedance c.star.2.1 + seriesImpedance c.star.2.2) c.refU c.sn2 c.sn3
      (c.adjusted (c.uk 2)) := by
  have hadd := star_uk_additive_partial c h
  obtain ⟨h1, h2, h3⟩ := h
  have p12 := lt_min h1 h2
  have p13 := lt_min h1 h3
  have p23 := lt_min h2 h3
  have m12 := p12.ne'
  have m13 := p13.ne'
  have m23 := p23.ne'
  have n1 := h1.ne'
  have n2 := h2.ne'
  have n3 := h3.ne'
  have hunit : ‖(⟨ρ, Real.sqrt (1 - ρ ^ 2)⟩ : ℂ)‖ = 1 := by
    have hρ2 : 0 ≤ 1 - ρ ^ 2 := by
      have : ρ ^ 2 ≤ 1 := by rw [← sq_abs]; exact pow_le_one₀ (abs_nonneg _) hρ
      linarith
    rw [Complex.norm_def, Complex.normSq_mk, Real.mul_self_sqrt hρ2]
    rw [show ρ * ρ + (1 - ρ ^ 2) = 1 by ring, Real.sqrt_one]
  have q1 : c.star.1.pk = ρ * c.star.1.uk * c.star.1.sn := by
    rw [star_fields]
    simp only [ThreeWinding.starPk, ThreeWinding.starUk, h12, h13, h23]
    field_simp
  have q2 : c.star.2.1.pk = ρ * c.star.2.1.uk * c.star.2.1.sn := by
    rw [star_fields]
    simp only [ThreeWinding.starPk, ThreeWinding.starUk, h12, h13, h23]
    field_simp
  have q3 : c.star.2.2.pk = ρ * c.star.2.2.uk * c.star.2.2.sn := by
    rw [star_fields]
    simp only [ThreeWinding.starPk, ThreeWinding.starUk, h12, h13, h23]
    field_simp
  have z1 := seriesImpedance_ratio c.star.1 ρ h1 hρ q1
  have z2 := seriesImpedance_ratio c.star.2.1 ρ h2 hρ q2
  have z3 := seriesImpedance_ratio c.star.2.2 ρ h3 hρ q3
  have s1 : c.star.1.sn = c.sn1 ∧ c.star.1.u2 = c.refU := ⟨rfl, tapped_fst c⟩
  have s2 : c.star.2.1.sn = c.sn2 ∧ c.star.2.1.u2 = c.refU := ⟨rfl, tapped_fst c⟩
  have s3 : c.star.2.2.sn = c.sn3 ∧ c.star.2.2.u2 = c.refU := ⟨rfl, tapped_fst c⟩
  rw [s1.1, s1.2] at z1
  rw [s2.1, s2.2] at z2
  rw [s3.1, s3.2] at z3
  have key : ∀ (a b s uk u : ℝ) (w : ℂ), ‖w‖ = 1 → a + b = uk / s → 0 < s → 0 ≤ uk →
      ‖((a * u ^ 2 : ℝ) : ℂ) * w + ((b * u ^ 2 : ℝ) : ℂ) * w‖ = uk * u ^ 2 / s := by
    intro a b s uk u w hw hab hs hk
    rw [← add_mul, norm_mul, hw, mul_one, ← Complex.ofReal_add, Complex.norm_real, ← add_mul, hab, Real.norm_eq_abs,
      abs_of_nonneg (mul_nonneg (div_nonneg hk hs.le) (sq_nonneg _))]
    ring
  unfold ShortCircuitVoltageIs
  rw [z1, z2, z3]
  exact ⟨key _ _ _ _ _ _ hunit hadd.1 p12 (hpos 0), key _ _ _ _ _ _ hunit hadd.2.1 p13 (hpos 1),
    key _ _ _ _ _ _ hunit hadd.2.2 p23 (hpos 2)⟩

/-- The example: 1 VA in all windings, all short-circuit voltages 10, losses 7, 6 and 7. -/
noncomputable def unequalLosses : ThreeWinding where
  u1 := 1; u2 := 1; u3 := 1; sn1 := 1; sn2 := 1; sn3 := 1
  uk := fun _ => (10, 10, 10)
  pk := fun i => if i = 1 then (6, 6, 6) else (7, 7, 7)
  i0 := 0; p0 := 0; tapSide := 0; tapPos := 0; tapMin := 0; tapMax := 0; tapNom := 0; tapSize := 0
  u1Rated := 1; u2Rated := 1; u3Rated := 1

/-- The full statement fails: with unequal losses the star has a short-circuit voltage of less than 10 between windings 1 and
2 (the impedances 3 + 4i and 4 + 3i have an absolute value of 5 each). -/
theorem star_short_circuit_voltage_wrong :
    unequalLosses.Rated ∧ (∀ i, unequalLosses.adjusted (unequalLosses.uk i) = 10) ∧
    ¬ ShortCircuitVoltageIs (seriesImpedance unequalLosses.star.1 + seriesImpedance unequalLosses.star.2.1)
      unequalLosses.refU unequalLosses.sn1 unequalLosses.sn2 10 := by
  have hadj : ∀ x : ℝ, unequalLosses.adjusted (x, x, x) = x := by
    intro x; simp [ThreeWinding.adjusted, tapAdjust, unequalLosses]
  refine ⟨by norm_num [ThreeWinding.Rated, unequalLosses], fun i => hadj 10, ?_⟩
  have hu : unequalLosses.tapped = (1, 1, 1) := by
    simp [ThreeWinding.tapped, unequalLosses]
  have huk : unequalLosses.starUk = (5, 5, 5) := by
    have : ∀ i, unequalLosses.uk i = (10, 10, 10) := fun _ => rfl
    simp only [ThreeWinding.starUk, this, hadj]
    norm_num [unequalLosses]
  have hpk : unequalLosses.starPk = (3, 4, 3) := by
    have p0 : unequalLosses.pk 0 = (7, 7, 7) := rfl
    have p1 : unequalLosses.pk 1 = (6, 6, 6) := rfl
    have p2 : unequalLosses.pk 2 = (7, 7, 7) := rfl
    simp only [ThreeWinding.starPk, p0, p1, p2, hadj]
    norm_num [unequalLosses]
  have s16 : Real.sqrt 16 = 4 := by rw [show (16 : ℝ) = 4 ^ 2 by norm_num]; exact Real.sqrt_sq (by norm_num)
  have s9 : Real.sqrt 9 = 3 := by rw [show (9 : ℝ) = 3 ^ 2 by norm_num]; exact Real.sqrt_sq (by norm_num)
  have z1 : seriesImpedance unequalLosses.star.1 = ⟨3, 4⟩ := by
    rw [star_fields, hu, huk, hpk]
    simp [seriesImpedance, unequalLosses]
    norm_num [s16]
  have z2 : seriesImpedance unequalLosses.star.2.1 = ⟨4, 3⟩ := by
    rw [star_fields, hu, huk, hpk]
    simp [seriesImpedance, unequalLosses]
    norm_num [s9]
  unfold ShortCircuitVoltageIs
  rw [z1, z2]
  intro h
  have h2 : ‖(⟨3, 4⟩ + ⟨4, 3⟩ : ℂ)‖ ^ 2 = 98 := by
    rw [Complex.sq_norm, Complex.normSq_apply]
    norm_num
  rw [h] at h2
  norm_num [ThreeWinding.refU, unequalLosses] at h2

/-- C29: the turns ratios of the star are those of the windings with the tap shift on the tapped winding, relative to the
rated voltages; only the transformer at winding 1 has a magnetising branch. -/
theorem star_ratios (c : ThreeWinding) (hu : c.refU ≠ 0) (hr : c.u1Rated ≠ 0) (h2 : c.u2Rated ≠ 0) (h3 : c.u3Rated ≠ 0) :
    let shift (i : Nat) : ℝ :=
      if c.tapSide = i then (if c.tapMax > c.tapMin then 1 else -1) * (c.tapPos - c.tapNom) * c.tapSize else 0
    (c.tapSide ≤ 2) →
    tapRatio c.star.1 = 1 ∧
    tapRatio c.star.2.1 = ((c.u2 + shift 1) / c.u2Rated) / ((c.u1 + shift 0) / c.u1Rated) ∧
    tapRatio c.star.2.2 = ((c.u3 + shift 2) / c.u3Rated) / ((c.u1 + shift 0) / c.u1Rated) ∧
    shuntAdmittance c.star.2.1 = 0 ∧ shuntAdmittance c.star.2.2 = 0 := by
  intro shift hside
  have htap : c.tapped = (c.u1 + shift 0, c.u2 + shift 1, c.u3 + shift 2) := by
    unfold ThreeWinding.tapped ThreeWinding.direction
    have hcast : (((if c.tapMax > c.tapMin then 1 else -1 : Int)) : ℝ) = (if c.tapMax > c.tapMin then 1 else -1) := by
      split <;> simp
    simp only [hcast, shift]
    rcases (by omega : c.tapSide = 0 ∨ c.tapSide = 1 ∨ c.tapSide = 2) with h | h | h <;> simp [h]
  have hu' : c.u1 + shift 0 ≠ 0 := by
    have := tapped_fst c
    rw [htap] at this
    rw [← this] at hu
    exact hu
  rw [star_fields, htap]
  refine ⟨?_, ?_, ?_, ?_, ?_⟩
  · simp only [tapRatio]; field_simp
  · simp only [tapRatio]; field_simp
  · simp only [tapRatio]; field_simp
  · apply Complex.ext <;> simp [shuntAdmittance]
  · apply Complex.ext <;> simp [shuntAdmittance]

/-- Non-vacuity: equal ratios of losses to short-circuit power, a tap of 2 steps and different rated powers. -/
noncomputable def sampleThreeWinding : ThreeWinding where
  u1 := 10; u2 := 5; u3 := 2; sn1 := 4; sn2 := 2; sn3 := 1
  uk := fun _ => (1 / 10, 1 / 10, 1 / 10)
  pk := fun i => if i = 0 then (1 / 10, 1 / 10, 1 / 10) else (1 / 20, 1 / 20, 1 / 20)
  i0 := 0; p0 := 0; tapSide := 1; tapPos := 2; tapMin := -4; tapMax := 4; tapNom := 0; tapSize := 1 / 10
  u1Rated := 10; u2Rated := 5; u3Rated := 2

example : sampleThreeWinding.Rated ∧
    sampleThreeWinding.adjusted (sampleThreeWinding.pk 0) =
      1 / 2 * sampleThreeWinding.adjusted (sampleThreeWinding.uk 0) * min sampleThreeWinding.sn1 sampleThreeWinding.sn2 ∧
    sampleThreeWinding.adjusted (sampleThreeWinding.pk 2) =
      1 / 2 * sampleThreeWinding.adjusted (sampleThreeWinding.uk 2) * min sampleThreeWinding.sn2 sampleThreeWinding.sn3 := by
  refine ⟨by norm_num [ThreeWinding.Rated, sampleThreeWinding], ?_, ?_⟩ <;>
  · simp [ThreeWinding.adjusted, tapAdjust, sampleThreeWinding]
    norm_num

end PGM.Component
