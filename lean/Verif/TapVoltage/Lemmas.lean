import Verif.TapVoltage.Spec
import Verif.Output.Records

/-!
# Auxiliary facts about the controlled voltage
-/

namespace PGM.TapVoltage

open PGM.Container PGM.Input PGM.Update PGM.Topology PGM.PowerFlow PGM.Output PGM.TapOpt

variable {K : Type} {σ : Symm}

theorem sqrt3_pos : (0 : ℝ) < √3 := Real.sqrt_pos.mpr (by norm_num)

theorem fold_real (new : RegUpdate → Option ℝ) (get : Reg → ℝ) (hstep : ∀ g d, get (updateReg g d) = (new d).getD (get g)) (us : List RegUpdate) :
    ∀ g, get (us.foldl updateReg g) = (us.filterMap new).getLast?.getD (get g) := by
  induction us with
  | nil => intro g; rfl
  | cons d us ih =>
    intro g
    rw [List.foldl_cons, ih, hstep, List.filterMap_cons]
    cases h : new d with
    | none => simp
    | some a => cases h' : (us.filterMap new).getLast? <;> simp [List.getLast?_cons, h']

theorem fold_opt (new : RegUpdate → Option ℝ) (get : Reg → Option ℝ) (hstep : ∀ g d, get (updateReg g d) = (new d).or (get g)) (us : List RegUpdate) :
    ∀ g, get (us.foldl updateReg g) = (us.filterMap new).getLast?.or (get g) := by
  induction us with
  | nil => intro g; simp
  | cons d us ih =>
    intro g
    rw [List.foldl_cons, ih, hstep, List.filterMap_cons]
    cases h : new d with
    | none => simp
    | some a => cases h' : (us.filterMap new).getLast? <;> simp [List.getLast?_cons, h']

theorem fold_rated (us : List RegUpdate) : ∀ g, (us.foldl updateReg g).uRated = g.uRated := by
  induction us with
  | nil => intro g; rfl
  | cons d us ih => intro g; rw [List.foldl_cons, ih]; rfl

/-- The regulator holds what the history left behind. -/
theorem regulator_eq (A : Attr) (node : Int) (d : RegInput) (us : List RegUpdate) :
    (regulator A node d us).uRated = A.uRated node ∧ (regulator A node d us).uSet = setPoint d us ∧ (regulator A node d us).uBand = bandWidth d us ∧
      (regulator A node d us).r.getD 0 = dropR d us ∧ (regulator A node d us).x.getD 0 = dropX d us := by
  refine ⟨?_, ?_, ?_, ?_, ?_⟩
  · exact fold_rated us _
  · exact fold_real _ _ (fun _ _ => rfl) us _
  · exact fold_real _ _ (fun _ _ => rfl) us _
  · exact congrArg (·.getD 0) (fold_opt (·.r) (·.r) (fun _ _ => rfl) us _)
  · exact congrArg (·.getD 0) (fold_opt (·.x) (·.x) (fun _ _ => rfl) us _)

/-- Comparing in per unit is comparing in volt. -/
theorem verdict_scale {R : ℝ} (hR : 0 < R) (a b w : ℝ) (hb : 0 ≤ b) :
    Verdict (a - b / 2) (a + b / 2) (R * w) (cmpBand (⟨0, 0, false, true, a / R, b / R⟩ : Tap ℝ) (some w)) := by
  have e1 : a / R - 1 / 2 * (b / R) = (a - b / 2) / R := by field_simp
  have e2 : a / R + 1 / 2 * (b / R) = (a + b / 2) / R := by field_simp
  simp only [cmpBand, e1, e2, cmpVal]
  have l1 : w < (a - b / 2) / R ↔ R * w < a - b / 2 := by rw [lt_div_iff₀ hR, mul_comm]
  have l2 : w = (a - b / 2) / R ↔ R * w = a - b / 2 := by rw [eq_div_iff hR.ne', mul_comm]
  have l3 : w < (a + b / 2) / R ↔ R * w < a + b / 2 := by rw [lt_div_iff₀ hR, mul_comm]
  have l4 : w = (a + b / 2) / R ↔ R * w = a + b / 2 := by rw [eq_div_iff hR.ne', mul_comm]
  simp only [l1, l2, l3, l4]
  split_ifs <;> simp_all [Verdict] <;> (try constructor) <;> (try linarith) <;> (try (rename_i h1 h2 h3 h4; push Not at *; rcases lt_or_eq_of_le ‹_› <;> simp_all <;> linarith))

/-- What the code makes of the impedance: a third of it in asymmetric calculations. -/
noncomputable def share (σ : Symm) : ℝ := match σ with | .sym => 1 | .asym => 1 / 3

/-- One phase: rotating the voltage to angle zero does not change the magnitude of the compensated voltage. -/
theorem phase_eq {R : ℝ} (hR : 0 < R) (z U i : ℂ) (hU : U ≠ 0) :
    √3 * ‖((R / √3 * ‖U‖ : ℝ) : ℂ) + z * ((1000000 / (√3 * R) : ℝ) * (star U / ‖U‖) * i)‖ = R * ‖U + z * 1000000 / (R : ℂ) ^ 2 * i‖ := by
  have h3 := sqrt3_pos
  have hn : (0 : ℝ) < ‖U‖ := norm_pos_iff.mpr hU
  have hnc : ((‖U‖ : ℝ) : ℂ) ≠ 0 := by exact_mod_cast hn.ne'
  have hRc : (R : ℂ) ≠ 0 := by exact_mod_cast hR.ne'
  have h3c : ((√3 : ℝ) : ℂ) ≠ 0 := by exact_mod_cast h3.ne'
  have hc : U * star U = ((‖U‖ : ℝ) : ℂ) ^ 2 := by
    rw [Complex.star_def, Complex.mul_conj, Complex.normSq_eq_norm_sq]; push_cast; rfl
  have : ((R / √3 * ‖U‖ : ℝ) : ℂ) + z * ((1000000 / (√3 * R) : ℝ) * (star U / ‖U‖) * i)
      = (R / √3 : ℝ) * (star U / ‖U‖) * (U + z * 1000000 / (R : ℂ) ^ 2 * i) := by
    push_cast
    field_simp
    linear_combination (-((R : ℂ) ^ 2)) * hc
  rw [this, norm_mul, norm_mul, norm_div, norm_star, Complex.norm_real, Complex.norm_real, Real.norm_of_nonneg (by positivity), norm_norm,
    div_self hn.ne']
  field_simp

/-- The controlled voltage in the sense of the documentation is the one that the code compares, up to the factor for the impedance. -/
theorem control_eq {R : ℝ} (hR : 0 < R) (g : Reg) (hg : g.uRated = R) (u s i : CV σ) (hs : IsPower u s i) (hu : ∀ j, u j ≠ 0)
    (U P Q : RV σ ℝ) (hU : ∀ j, U j = uScale σ * R * ‖u j‖) (hP : ∀ j, P j = basePower σ * (s j).re) (hQ : ∀ j, Q j = basePower σ * (s j).im) :
    IsControlVoltage σ U P Q (share σ * g.r.getD 0) (share σ * g.x.getD 0) (R * meanVal (compensated (regParam σ g) u i)) := by
  have h3 := sqrt3_pos
  have hRc : (R : ℂ) ≠ 0 := by exact_mod_cast hR.ne'
  have h33 : ((√3 : ℝ) : ℂ) * ((√3 : ℝ) : ℂ) = 3 := by rw [← Complex.ofReal_mul, Real.mul_self_sqrt (by norm_num)]; norm_num
  have h3c : ((√3 : ℝ) : ℂ) ≠ 0 := by exact_mod_cast h3.ne'
  have hV : ∀ j, phaseVoltage σ U j = R / √3 * ‖u j‖ := by
    intro j
    cases σ
    · simp only [phaseVoltage, hU, uScale]; field_simp
    · simp only [phaseVoltage, hU, uScale]; field_simp
  have hS : ∀ j, phasePower σ P Q j = (1000000 / 3 : ℝ) * s j := by
    intro j
    have hre := Complex.re_add_im (s j)
    cases σ
    · simp only [phasePower, hP, hQ, basePower]; push_cast; linear_combination (1000000 / 3) * hre
    · simp only [phasePower, hP, hQ, basePower]; push_cast; linear_combination (1000000 / 3) * hre
  refine ⟨fun j => (1000000 / (√3 * R) : ℝ) * (star (u j) / ‖u j‖) * i j, ?_, ?_⟩
  · intro j
    have hn : ((‖u j‖ : ℝ) : ℂ) ≠ 0 := by exact_mod_cast (norm_pos_iff.mpr (hu j)).ne'
    rw [hV, hS, hs j]
    simp only [Complex.star_def, map_mul, map_div₀, Complex.conj_ofReal, Complex.conj_conj]
    push_cast
    field_simp
    linear_combination (-(u j * (starRingEnd ℂ) (i j))) * h33
  · have hz : (regParam σ g).zComp = ((share σ * g.r.getD 0 : ℝ) + (share σ * g.x.getD 0 : ℝ) * Complex.I) * 1000000 / (R : ℂ) ^ 2 := by
      have : (⟨g.r.getD 0, g.x.getD 0⟩ : ℂ) = g.r.getD 0 + g.x.getD 0 * Complex.I := by apply Complex.ext <;> simp
      simp only [regParam, zBase, hg, this]
      cases σ
      · simp only [basePower, share]; push_cast; field_simp
      · simp only [basePower, share]; push_cast; field_simp
    have hph : ∀ j, R * compensated (regParam σ g) u i j = √3 * ‖((phaseVoltage σ U j : ℝ) : ℂ) + ((share σ * g.r.getD 0 : ℝ) + (share σ * g.x.getD 0 : ℝ) * Complex.I)
        * ((1000000 / (√3 * R) : ℝ) * (star (u j) / ‖u j‖) * i j)‖ := by
      intro j
      rw [hV, phase_eq hR _ _ _ (hu j), compensated, hz]
    cases σ
    · have h0 := hph (0 : Fin 1)
      simp only [meanVal]
      rw [h0]
      have : ∀ f : Fin Symm.sym.phases → ℝ, ∑ j, f j = f (0 : Fin 1) := fun f => Fin.sum_univ_one f
      rw [this]
      simp only [Symm.phases]
      push_cast
      ring
    · have h0 := hph (0 : Fin 3)
      have h1 := hph (1 : Fin 3)
      have h2 := hph (2 : Fin 3)
      simp only [meanVal]
      rw [mul_div_assoc', mul_add, mul_add, h0, h1, h2]
      have : ∀ f : Fin Symm.asym.phases → ℝ, ∑ j, f j = f (0 : Fin 3) + f (1 : Fin 3) + f (2 : Fin 3) := fun f => Fin.sum_univ_three f
      rw [this]
      simp only [Symm.phases]
      push_cast
      ring

end PGM.TapVoltage
