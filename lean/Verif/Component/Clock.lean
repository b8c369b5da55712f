import Mathlib.Analysis.SpecialFunctions.Trigonometric.Basic
import Mathlib.Tactic.Ring
import Mathlib.Tactic.NormNum

/-!
# Transformer clocks (property C27)

Prefix of all paths: `P/` = `/repo/power_grid_model_c/power_grid_model/include/power_grid_model/`.
-/

namespace PGM.Component

/-- `WindingType`, `P/common/enum.hpp` line 21. -/
inductive Winding | wye | wyeN | delta | zigzag | zigzagN
deriving DecidableEq, Repr

/-- The two comparisons in `is_valid_clock` that define `is_from_wye` and `is_to_wye`. -/
def isWye (w : Winding) : Bool := w == .wye || w == .wyeN

/-- `is_valid_clock`, `P/component/transformer_utils.hpp` lines 49-60 (`%` truncates in C++). -/
def isValidClock (clock : Int) (f t : Winding) : Bool := ((clock.tmod 2 == 0) == (isWye f == isWye t))

/-- `map_to_cyclic_range` for integers, `P/common/common.hpp` lines 157-161. -/
def cyclic (v period : Int) : Int := (v.tmod period + period).tmod period

/-- The clock that the constructor of `Transformer` stores, `P/component/transformer.hpp` lines 82-87; `none`:
`InvalidTransformerClock`. -/
def transformerClock (clock : Int) (f t : Winding) : Option Int :=
  if !isValidClock clock f t then none else some (cyclic clock 12)

/-- The clocks that the constructor of `ThreeWindingTransformer` stores, `P/component/three_winding_transformer.hpp`
lines 105-115. -/
def transformer3Clocks (c12 c13 : Int) (w1 w2 w3 : Winding) : Option (Int × Int) :=
  if !isValidClock c12 w1 w2 then none
  else if !isValidClock c13 w1 w3 then none
  else some (cyclic c12 12, cyclic c13 12)

/-- Windings and clocks of the three two-winding transformers, `convert_to_two_winding_transformers`,
`P/component/three_winding_transformer.hpp` lines 303-411; each is passed to the constructor of `Transformer`. -/
def starClocks (c12 c13 : Int) (w1 w2 w3 : Winding) : List (Option Int) :=
  [transformerClock 0 .wyeN .wyeN, transformerClock (12 - c12) w2 w1, transformerClock (12 - c13) w3 w1]

/-- The phase factor of the tap ratio of a transformer, `std::exp(1.0i * (clock_ * deg_30))`,
`P/component/transformer.hpp` lines 243-249, with exact arithmetic. -/
noncomputable def phaseFactor (clock : Int) : ℂ := Complex.exp (Complex.I * (clock * (Real.pi / 6)))

/-! ## Specification -/

/-- The vector groups that exist: both windings of the same family (star or not) have even clocks, windings of different
families odd ones. -/
def VectorGroupExists (clock : Int) (f t : Winding) : Prop :=
  if ((f = .wye ∨ f = .wyeN) ↔ (t = .wye ∨ t = .wyeN)) then (2 ∣ clock) else ¬ (2 ∣ clock)

/-! ## C27 -/

theorem tmod_two (c : Int) : (c.tmod 2 == 0) = decide (2 ∣ c) := by
  have h1 := Int.tmod_add_mul_tdiv c 2
  have h2 : c.tmod 2 = 0 ↔ 2 ∣ c := by
    constructor
    · intro h; exact Int.dvd_of_tmod_eq_zero h
    · intro h; exact Int.tmod_eq_zero_of_dvd h
  by_cases h : c.tmod 2 = 0
  · rw [h]; simp [h2.mp h]
  · rw [decide_eq_false (fun hd => h (h2.mpr hd))]
    exact beq_false_of_ne h

theorem isValidClock_iff (clock : Int) (f t : Winding) :
    isValidClock clock f t = true ↔ VectorGroupExists clock f t := by
  unfold isValidClock VectorGroupExists
  rw [tmod_two]
  have hw : ∀ w, isWye w = decide (w = .wye ∨ w = .wyeN) := by intro w; cases w <;> rfl
  rw [hw, hw]
  by_cases h : (2 : Int) ∣ clock <;> cases f <;> cases t <;> simp [h]

theorem cyclic_eq (v : Int) : cyclic v 12 = v % 12 := by
  unfold cyclic
  have h1 : -12 < v.tmod 12 := by
    have := Int.lt_tmod_of_pos v (by decide : (0 : Int) < 12); simpa using this
  have h2 : v.tmod 12 < 12 := Int.tmod_lt_of_pos v (by decide)
  have h3 := Int.tmod_add_mul_tdiv v 12
  rw [Int.tmod_eq_emod_of_nonneg (by omega)]
  omega

/-- C27: a transformer is accepted if and only if its vector group exists, for every clock value. -/
theorem clock_accepted_iff (clock : Int) (f t : Winding) :
    (transformerClock clock f t).isSome ↔ VectorGroupExists clock f t := by
  rw [← isValidClock_iff]
  unfold transformerClock
  cases isValidClock clock f t <;> simp

/-- C27: the stored clock is the value modulo twelve. -/
theorem clock_stored (clock c : Int) (f t : Winding) (h : transformerClock clock f t = some c) :
    0 ≤ c ∧ c < 12 ∧ c ≡ clock [ZMOD 12] := by
  unfold transformerClock at h
  split at h
  · cases h
  · cases h
    rw [cyclic_eq]
    refine ⟨by omega, by omega, Int.mod_modEq clock 12⟩

/-- Clocks that are congruent modulo twelve have the same phase factor. -/
theorem phaseFactor_congr (a b : Int) (h : a ≡ b [ZMOD 12]) : phaseFactor a = phaseFactor b := by
  obtain ⟨k, hk⟩ := h.dvd
  have hb : b = a + 12 * k := by omega
  subst hb
  unfold phaseFactor
  have : Complex.I * (((a + 12 * k : Int) : ℂ) * (Real.pi / 6)) =
      Complex.I * ((a : ℂ) * (Real.pi / 6)) + k * (2 * Real.pi * Complex.I) := by
    push_cast; ring
  rw [this, Complex.exp_add, Complex.exp_int_mul_two_pi_mul_I, mul_one]

/-- C27: the phase shift of an accepted transformer is that of the given clock. -/
theorem clock_phase (clock c : Int) (f t : Winding) (h : transformerClock clock f t = some c) :
    phaseFactor c = phaseFactor clock := phaseFactor_congr _ _ (clock_stored clock c f t h).2.2

/-- C27, three windings: accepted if and only if both vector groups exist. -/
theorem clock3_accepted_iff (c12 c13 : Int) (w1 w2 w3 : Winding) :
    (transformer3Clocks c12 c13 w1 w2 w3).isSome ↔ VectorGroupExists c12 w1 w2 ∧ VectorGroupExists c13 w1 w3 := by
  rw [← isValidClock_iff, ← isValidClock_iff]
  unfold transformer3Clocks
  cases isValidClock c12 w1 w2 <;> cases isValidClock c13 w1 w3 <;> simp

/-- C27, three windings: the two-winding equivalents of an accepted transformer are accepted as well, and their clocks,
which lead from winding 2 and 3 to the star point, are the negated given clocks. -/
theorem clock3_star (c12 c13 d12 d13 : Int) (w1 w2 w3 : Winding)
    (h : transformer3Clocks c12 c13 w1 w2 w3 = some (d12, d13)) :
    ∃ t2 t3, starClocks d12 d13 w1 w2 w3 = [some 0, some t2, some t3] ∧
      t2 ≡ -c12 [ZMOD 12] ∧ t3 ≡ -c13 [ZMOD 12] ∧
      phaseFactor t2 * phaseFactor c12 = 1 ∧ phaseFactor t3 * phaseFactor c13 = 1 := by
  have key : ∀ c d (w : Winding), isValidClock c w1 w = true → d = cyclic c 12 →
      ∃ t, transformerClock (12 - d) w w1 = some t ∧ t ≡ -c [ZMOD 12] ∧ phaseFactor t * phaseFactor c = 1 := by
    intro c d w hv hd
    rw [cyclic_eq] at hd
    have hv' : isValidClock (12 - d) w w1 = true := by
      rw [isValidClock_iff] at hv ⊢
      unfold VectorGroupExists at hv ⊢
      have h2 : (2 : Int) ∣ c ↔ (2 : Int) ∣ (12 - d) := by omega
      by_cases hf : ((w1 = .wye ∨ w1 = .wyeN) ↔ (w = .wye ∨ w = .wyeN))
      · rw [if_pos hf] at hv
        rw [if_pos hf.symm]; exact h2.mp hv
      · rw [if_neg hf] at hv
        rw [if_neg (fun h => hf h.symm)]
        exact fun h => hv (h2.mpr h)
    have ht : transformerClock (12 - d) w w1 = some ((12 - d) % 12) := by
      unfold transformerClock; rw [hv', cyclic_eq]; rfl
    have hm : (12 - d) % 12 ≡ -c [ZMOD 12] := by
      unfold Int.ModEq; omega
    refine ⟨_, ht, hm, ?_⟩
    rw [phaseFactor_congr _ _ hm]
    unfold phaseFactor
    rw [← Complex.exp_add]
    have : Complex.I * (((-c : Int) : ℂ) * (Real.pi / 6)) + Complex.I * ((c : ℂ) * (Real.pi / 6)) = 0 := by
      push_cast; ring
    rw [this, Complex.exp_zero]
  unfold transformer3Clocks at h
  split at h
  · cases h
  · split at h
    · cases h
    · rename_i h1 h2
      simp only [Option.some.injEq, Prod.mk.injEq] at h
      simp only [Bool.not_eq_true', Bool.not_eq_false] at h1 h2
      obtain ⟨t2, a1, a2, a3⟩ := key c12 d12 w2 h1 h.1.symm
      obtain ⟨t3, b1, b2, b3⟩ := key c13 d13 w3 h2 h.2.symm
      refine ⟨t2, t3, ?_, a2, b2, a3, b3⟩
      unfold starClocks
      rw [a1, b1]
      rfl

/-- Negative and large clocks. -/
example : transformerClock (-1) .delta .wyeN = some 11 ∧ transformerClock 125 .wye .delta = some 5 ∧
    transformerClock 1 .wye .wyeN = none ∧ transformerClock (-128) .delta .zigzag = some 4 := by decide
example : transformer3Clocks (-7) 6 .wyeN .delta .wye = some (5, 6) ∧
    starClocks 5 6 .wyeN .delta .wye = [some 0, some 7, some 6] := by decide

end PGM.Component
