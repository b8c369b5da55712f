import Verif.Reports.Spec
import Verif.Output.Records
import Verif.Output.Current

/-!
# Auxiliary facts about reported values
-/

namespace PGM.Reports

open PGM.Container PGM.Input PGM.Update PGM.Topology PGM.PowerFlow PGM.Output

variable {K : Type} {σ : Symm}

theorem sumVal_eq (v : RV σ ℝ) : sumVal v = ∑ j, v j := by
  cases σ
  · exact (Fin.sum_univ_one v).symm
  · exact (Fin.sum_univ_three v).symm

theorem maxVal_greatest (v : RV σ ℝ) : IsGreatest (Set.range v) (maxVal v) := by
  cases σ
  · refine ⟨⟨(0 : Fin 1), rfl⟩, ?_⟩
    rintro _ ⟨j, rfl⟩
    have : j = (0 : Fin 1) := Subsingleton.elim (α := Fin 1) _ _
    rw [this]
    exact le_refl _
  · constructor
    · rcases max_choice (max (v (0 : Fin 3)) (v (1 : Fin 3))) (v (2 : Fin 3)) with h | h
      · rcases max_choice (v (0 : Fin 3)) (v (1 : Fin 3)) with h' | h'
        · exact ⟨(0 : Fin 3), by simp only [maxVal]; rw [h, h']⟩
        · exact ⟨(1 : Fin 3), by simp only [maxVal]; rw [h, h']⟩
      · exact ⟨(2 : Fin 3), by simp only [maxVal, h]⟩
    · rintro _ ⟨j, rfl⟩
      have hj : j = (0 : Fin 3) ∨ j = (1 : Fin 3) ∨ j = (2 : Fin 3) := by
        have : ∀ j : Fin 3, j = 0 ∨ j = 1 ∨ j = 2 := by decide
        exact this j
      simp only [maxVal]
      rcases hj with rfl | rfl | rfl
      · exact le_max_of_le_left (le_max_left _ _)
      · exact le_max_of_le_left (le_max_right _ _)
      · exact le_max_right _ _

theorem largest_eq (r : Output.BranchOut σ) : LargestCurrent r (max (maxVal r.iFrom) (maxVal r.iTo)) := by
  have h1 := maxVal_greatest r.iFrom
  have h2 := maxVal_greatest r.iTo
  exact IsGreatest.union h1 h2

theorem basePower_pos (σ : Symm) : 0 < basePower σ := by cases σ <;> simp [basePower]

/-- The apparent power belongs to active and reactive power. -/
theorem apparent (z : ℂ) (b : ℝ) (hb : 0 < b) : b * ‖z‖ = √((b * z.re) ^ 2 + (b * z.im) ^ 2) := by
  rw [show (b * z.re) ^ 2 + (b * z.im) ^ 2 = b ^ 2 * (z.re * z.re + z.im * z.im) by ring, Real.sqrt_mul (by positivity), Real.sqrt_sq hb.le,
    Complex.norm_def, Complex.normSq_apply]

theorem ampere_eq (u : ℝ) : baseCurrent u = ampere u := by unfold baseCurrent ampere; rw [div_div, mul_comm]

theorem ampere_pos {u : ℝ} (hu : 0 < u) : 0 < ampere u := by
  have : (0 : ℝ) < √3 := Real.sqrt_pos.mpr (by norm_num)
  unfold ampere
  positivity

theorem polar (b : ℝ) (hb : 0 ≤ b) (z : ℂ) : IsPolar (b * ‖z‖) z.arg (b * z) := by
  refine ⟨by positivity, Complex.neg_pi_lt_arg z, Complex.arg_le_pi z, ?_⟩
  conv_rhs => rw [← Complex.norm_mul_exp_arg_mul_I z]
  push_cast
  ring

theorem three_eq (x : CV σ) (j : Fin 3) : three x j = phasors x j := by
  cases σ
  · have h := spread_exp 0 j
    have hsc : spread .asym (x (0 : Fin 1)) j = x (0 : Fin 1) * spread .asym 1 j := by
      have : ∀ (z : ℂ) (j : Fin 3), (![z, z * a2, z * a] : Fin 3 → ℂ) j = z * (![1, 1 * a2, 1 * a] : Fin 3 → ℂ) j := by
        intro z j
        fin_cases j <;> simp
      exact this _ j
    simp only [three, phasors]
    rw [hsc]
    simp only [Complex.ofReal_zero, zero_mul, Complex.exp_zero] at h
    rw [h]
    congr 2
    push_cast
    ring
  · rfl

theorem scCurrent_ok {u : ℝ} (hu : 0 < u) (i : CV σ) : InAmpere (scCurrent (baseCurrent u) i) u i := by
  intro j
  simp only [scCurrent]
  rw [three_eq, ampere_eq]
  exact polar _ (ampere_pos hu).le _

end PGM.Reports
