import Verif.Physical.Model
import Verif.Physical.Spec

/-!
# Branches and shunts in physical units: lemmas (property C59)
-/

namespace PGM.Physical

open PGM.Component

theorem sqrt3_ne : (√3 : ℝ) ≠ 0 := by positivity
theorem sqrt3_sq : (√3 : ℝ) * √3 = 3 := Real.mul_self_sqrt (by norm_num)

/-- `branch_exact` with conditions only for branches that are open at one side. -/
theorem branch_exact' (f t : Bool) (ys ysh r uf ut jf jt : ℂ) (hr : r ≠ 0)
    (h : f ≠ t → ys ≠ 0 ∧ ys + ysh / 2 ≠ 0 ∧ (tolerance ≤ ‖ysh‖ ∨ ysh = 0)) :
    Flows (calcSym f t ys ysh r) uf ut jf jt ↔ SwitchedBranch f t ys ysh r uf ut jf jt := by
  have hs : star r ≠ 0 := by simpa using hr
  have hn : (1 / (‖r‖ : ℂ) / (‖r‖ : ℂ)) = 1 / (r * star r) := by rw [div_div, norm_sq_cast]
  cases f <;> cases t
  · simp only [calcSym, BranchParam.zero, Flows, zero_mul, add_zero, Bool.and_self, Bool.not_false, if_true, Bool.or_self,
      Bool.false_eq_true, if_false, SwitchedBranch]
    constructor
    · rintro ⟨h1, h2⟩
      refine ⟨0, 0, by simp, by simp, fun _ => h1, fun _ => h2, ?_⟩
      rw [piCircuit_iff _ _ _ _ _ _ _ hr]
      simp [h1, h2]
    · rintro ⟨ef, et, -, -, h1, h2, -⟩
      exact ⟨h1 trivial, h2 trivial⟩
  · obtain ⟨h1, h2, h3⟩ := h (by simp); exact branch_exact _ _ _ _ _ _ _ _ _ hr h1 h2 h3
  · obtain ⟨h1, h2, h3⟩ := h (by simp); exact branch_exact _ _ _ _ _ _ _ _ _ hr h1 h2 h3
  · simp only [calcSym, Flows, Bool.and_self, Bool.not_true, Bool.false_eq_true, if_false, hn, SwitchedBranch]
    constructor
    · rintro ⟨h1, h2⟩
      refine ⟨uf, ut, by simp, by simp, by simp, by simp, ?_⟩
      rw [piCircuit_iff _ _ _ _ _ _ _ hr, h1, h2]
      constructor <;> field_simp <;> ring
    · rintro ⟨ef, et, h1, h2, -, -, h3⟩
      rw [h1 trivial, h2 trivial, piCircuit_iff _ _ _ _ _ _ _ hr] at h3
      rw [h3.1, h3.2]
      constructor <;> field_simp <;> ring

theorem piCircuit_scale (ys ysh r uf ut jf jt : ℂ) (bf bt cf ct : ℝ) (hbf : bf ≠ 0) (hbt : bt ≠ 0) (hcf : cf ≠ 0)
    (hct : ct ≠ 0) (hp : cf * bf = ct * bt) (hr : r ≠ 0) :
    PiCircuit ys ysh r uf ut jf jt ↔
      PiCircuit (ys * (ct / bt : ℝ)) (ysh * (ct / bt : ℝ)) (r * (bf / bt : ℝ)) (bf * uf) (bt * ut) (cf * jf) (ct * jt) := by
  have h1 : (bf : ℂ) ≠ 0 := by exact_mod_cast hbf
  have h2 : (bt : ℂ) ≠ 0 := by exact_mod_cast hbt
  have h3 : (cf : ℂ) ≠ 0 := by exact_mod_cast hcf
  have h4 : (ct : ℂ) ≠ 0 := by exact_mod_cast hct
  have hp' : (cf : ℂ) * bf = ct * bt := by exact_mod_cast hp
  have hs : star r ≠ 0 := by simpa using hr
  have hr' : r * ((bf / bt : ℝ) : ℂ) ≠ 0 := by
    apply mul_ne_zero hr
    push_cast
    exact div_ne_zero h1 h2
  have hstar : star (r * ((bf / bt : ℝ) : ℂ)) = star r * (bf / bt) := by
    rw [star_mul', show star (((bf / bt : ℝ)) : ℂ) = ((bf / bt : ℝ) : ℂ) from Complex.conj_ofReal _]
    push_cast; rfl
  have hcf' : (cf : ℂ) = ct * bt / bf := by field_simp; exact hp'
  rw [piCircuit_iff _ _ _ _ _ _ _ hr, piCircuit_iff _ _ _ _ _ _ _ hr', hstar]
  push_cast
  rw [hcf']
  constructor
  · rintro ⟨e1, e2⟩
    rw [e1, e2]
    constructor <;> field_simp
  · rintro ⟨e1, e2⟩
    constructor
    · have hne : (ct * bt / bf : ℂ) ≠ 0 := div_ne_zero (mul_ne_zero h4 h2) h1
      apply mul_left_cancel₀ hne
      rw [e1]
      field_simp
    · apply mul_left_cancel₀ h4
      rw [e2]
      field_simp

theorem switched_scale (f t : Bool) (ys ysh r uf ut jf jt : ℂ) (bf bt cf ct : ℝ) (hbf : bf ≠ 0) (hbt : bt ≠ 0) (hcf : cf ≠ 0)
    (hct : ct ≠ 0) (hp : cf * bf = ct * bt) (hr : r ≠ 0) :
    SwitchedBranch f t ys ysh r uf ut jf jt ↔
      SwitchedBranch f t (ys * (ct / bt : ℝ)) (ysh * (ct / bt : ℝ)) (r * (bf / bt : ℝ)) (bf * uf) (bt * ut) (cf * jf)
        (ct * jt) := by
  have h1 : (bf : ℂ) ≠ 0 := by exact_mod_cast hbf
  have h2 : (bt : ℂ) ≠ 0 := by exact_mod_cast hbt
  have h3 : (cf : ℂ) ≠ 0 := by exact_mod_cast hcf
  have h4 : (ct : ℂ) ≠ 0 := by exact_mod_cast hct
  unfold SwitchedBranch
  constructor
  · rintro ⟨ef, et, e1, e2, e3, e4, e5⟩
    refine ⟨bf * ef, bt * et, fun h => by rw [e1 h], fun h => by rw [e2 h], fun h => by rw [e3 h, mul_zero],
      fun h => by rw [e4 h, mul_zero], ?_⟩
    exact (piCircuit_scale _ _ _ _ _ _ _ _ _ _ _ hbf hbt hcf hct hp hr).mp e5
  · rintro ⟨ef, et, e1, e2, e3, e4, e5⟩
    refine ⟨ef / bf, et / bt, fun h => by rw [e1 h]; field_simp, fun h => by rw [e2 h]; field_simp,
      fun h => by simpa [h3] using e3 h, fun h => by simpa [h4] using e4 h, ?_⟩
    rw [piCircuit_scale _ _ _ _ _ _ _ _ _ _ _ hbf hbt hcf hct hp hr]
    rw [mul_div_cancel₀ _ h1, mul_div_cancel₀ _ h2]
    exact e5

/-- The bases of the two sides of a branch: `ratio` of the voltages, `10^6 / u²` of the admittances. -/
theorem bases (u1 u2 : ℝ) (h1 : u1 ≠ 0) (h2 : u2 ≠ 0) :
    u1 / √3 ≠ 0 ∧ u2 / √3 ≠ 0 ∧ (10 ^ 6 / (√3 * u1) : ℝ) ≠ 0 ∧ (10 ^ 6 / (√3 * u2) : ℝ) ≠ 0 ∧
    (10 ^ 6 / (√3 * u1) : ℝ) * (u1 / √3) = (10 ^ 6 / (√3 * u2) : ℝ) * (u2 / √3) ∧
    (10 ^ 6 / (√3 * u2) : ℝ) / (u2 / √3) = 10 ^ 6 / u2 ^ 2 ∧ (u1 / √3) / (u2 / √3) = u1 / u2 := by
  have h3 := sqrt3_ne
  refine ⟨div_ne_zero h1 h3, div_ne_zero h2 h3, div_ne_zero (by norm_num) (mul_ne_zero h3 h1),
    div_ne_zero (by norm_num) (mul_ne_zero h3 h2), ?_, ?_, ?_⟩
  · field_simp
  · field_simp
  · field_simp

theorem baseY_eq (u : ℝ) (h : u ≠ 0) : baseY u = 10 ^ 6 / u ^ 2 := by
  have h3 := sqrt3_ne
  unfold baseY baseI basePower3p
  field_simp
  norm_num

theorem baseYTo_eq (u : ℝ) (h : u ≠ 0) : baseYTo u = 10 ^ 6 / u ^ 2 := by
  have h3 := sqrt3_sq
  have h4 := sqrt3_ne
  unfold baseYTo baseI basePower1p basePower3p
  field_simp
  have : (√3 : ℝ) ^ 2 = 3 := by rw [sq]; exact h3
  rw [this]; norm_num

/-- From per unit to physical units: a branch whose per unit admittances are `ys`, `ysh` in siemens divided by the base of the to side
and whose ratio is `n` (in volt per volt) divided by that of the rated voltages. -/
theorem branch_units (f t : Bool) (u1 u2 : ℝ) (h1 : u1 ≠ 0) (h2 : u2 ≠ 0) (ys ysh n : ℂ) (hn : n ≠ 0)
    (ho : OpenEnd f t u2 ys ysh) (uf ut jf jt : ℂ) :
    Flows (calcSym f t (ys / ((10 ^ 6 / u2 ^ 2 : ℝ) : ℂ)) (ysh / ((10 ^ 6 / u2 ^ 2 : ℝ) : ℂ)) (n / ((u1 / u2 : ℝ) : ℂ)))
      uf ut jf jt ↔
    SwitchedBranch f t ys ysh n (volts u1 uf) (volts u2 ut) (amps u1 jf) (amps u2 jt) := by
  obtain ⟨b1, b2, b3, b4, b5, b6, b7⟩ := bases u1 u2 h1 h2
  have hb : (10 ^ 6 / u2 ^ 2 : ℝ) ≠ 0 := by positivity
  have hbp : (0 : ℝ) < 10 ^ 6 / u2 ^ 2 := by positivity
  have hbc : ((10 ^ 6 / u2 ^ 2 : ℝ) : ℂ) ≠ 0 := by exact_mod_cast hb
  have hq : (u1 / u2 : ℝ) ≠ 0 := div_ne_zero h1 h2
  have hqc : ((u1 / u2 : ℝ) : ℂ) ≠ 0 := by exact_mod_cast hq
  have hr : n / ((u1 / u2 : ℝ) : ℂ) ≠ 0 := div_ne_zero hn hqc
  rw [branch_exact' _ _ _ _ _ _ _ _ _ hr, switched_scale f t _ _ _ uf ut jf jt _ _ _ _ b1 b2 b3 b4 b5 hr, b6, b7,
    div_mul_cancel₀ _ hbc, div_mul_cancel₀ _ hbc, div_mul_cancel₀ _ hqc]
  · rfl
  · intro hft
    obtain ⟨o1, o2, o3⟩ := ho hft
    refine ⟨div_ne_zero o1 hbc, ?_, ?_⟩
    · have : ys / ((10 ^ 6 / u2 ^ 2 : ℝ) : ℂ) + ysh / ((10 ^ 6 / u2 ^ 2 : ℝ) : ℂ) / 2 =
        (ys + ysh / 2) / ((10 ^ 6 / u2 ^ 2 : ℝ) : ℂ) := by ring
      rw [this]
      exact div_ne_zero o2 hbc
    · rcases o3 with o3 | o3
      · right; rw [o3, zero_div]
      · left
        rw [norm_div, Complex.norm_real, Real.norm_of_nonneg hbp.le, le_div_iff₀ hbp]
        unfold tolerance
        rw [show (1 / 100000000 : ℝ) = 10 ^ (-8 : ℤ) by norm_num]
        exact o3

/-! ## Three phases -/

theorem abcBlock_mulVec (y1 y0 : ℂ) (v : C3) (p : Fin 3) :
    (abcBlock y1 y0).mulVec v p = y1 * (v p - common v) + y0 * common v := by
  simp only [abcBlock, Matrix.mulVec, dotProduct, Fin.sum_univ_three, balancedMatrix, common]
  fin_cases p <;> simp <;> ring

theorem common_add (v w : C3) : common (v + w) = common v + common w := by simp [common]; ring

theorem common_abcBlock (y1 y0 : ℂ) (v : C3) : common ((abcBlock y1 y0).mulVec v) = y0 * common v := by
  simp only [common, abcBlock_mulVec]
  ring

/-- A three-phase branch: the common part obeys the zero sequence admittances, the rest the positive sequence ones. -/
theorem flows3_iff (f t : Bool) (y1s y1sh y0s y0sh r : ℂ) (uf ut jf jt : C3) :
    Flows3 (calcAsym f t y1s y1sh y0s y0sh r) uf ut jf jt ↔
      Flows (calcSym f t y0s y0sh r) (common uf) (common ut) (common jf) (common jt) ∧
      ∀ p, Flows (calcSym f t y1s y1sh r) (uf p - common uf) (ut p - common ut) (jf p - common jf) (jt p - common jt) := by
  obtain ⟨h1, h2, h3, h4⟩ := calcAsym_blocks f t y1s y1sh y0s y0sh r
  unfold Flows3 Flows
  rw [h1, h2, h3, h4]
  generalize calcSym f t y1s y1sh r = p1
  generalize calcSym f t y0s y0sh r = p0
  constructor
  · rintro ⟨e1, e2⟩
    have c1 : common jf = p0.yff * common uf + p0.yft * common ut := by
      rw [e1, common_add, common_abcBlock, common_abcBlock]
    have c2 : common jt = p0.ytf * common uf + p0.ytt * common ut := by
      rw [e2, common_add, common_abcBlock, common_abcBlock]
    refine ⟨⟨c1, c2⟩, fun p => ⟨?_, ?_⟩⟩
    · have := congrFun e1 p
      rw [Pi.add_apply, abcBlock_mulVec, abcBlock_mulVec] at this
      rw [this, c1]; ring
    · have := congrFun e2 p
      rw [Pi.add_apply, abcBlock_mulVec, abcBlock_mulVec] at this
      rw [this, c2]; ring
  · rintro ⟨⟨c1, c2⟩, h⟩
    constructor
    · funext p
      rw [Pi.add_apply, abcBlock_mulVec, abcBlock_mulVec]
      linear_combination (h p).1 + c1
    · funext p
      rw [Pi.add_apply, abcBlock_mulVec, abcBlock_mulVec]
      linear_combination (h p).2 + c2

/-- `volts` and `amps` phase by phase. -/
noncomputable def volts3 (u : ℝ) (v : C3) : C3 := fun p => volts u (v p)

noncomputable def amps3 (u : ℝ) (v : C3) : C3 := fun p => amps u (v p)

theorem common_volts (u : ℝ) (v : C3) : common (volts3 u v) = volts u (common v) := by
  simp only [common, volts3, volts]; ring

theorem common_amps (u : ℝ) (v : C3) : common (amps3 u v) = amps u (common v) := by
  simp only [common, amps3, amps]; ring

theorem volts_sub (u : ℝ) (v w : ℂ) : volts u (v - w) = volts u v - volts u w := by simp only [volts]; ring
theorem amps_sub (u : ℝ) (v w : ℂ) : amps u (v - w) = amps u v - amps u w := by simp only [amps]; ring

/-- From per unit to physical units, three phases. -/
theorem branch3_units (f t : Bool) (u1 u2 : ℝ) (h1 : u1 ≠ 0) (h2 : u2 ≠ 0) (ys1 ysh1 ys0 ysh0 n : ℂ) (hn : n ≠ 0)
    (ho1 : OpenEnd f t u2 ys1 ysh1) (ho0 : OpenEnd f t u2 ys0 ysh0) (uf ut jf jt : C3) :
    Flows3 (calcAsym f t (ys1 / ((10 ^ 6 / u2 ^ 2 : ℝ) : ℂ)) (ysh1 / ((10 ^ 6 / u2 ^ 2 : ℝ) : ℂ))
      (ys0 / ((10 ^ 6 / u2 ^ 2 : ℝ) : ℂ)) (ysh0 / ((10 ^ 6 / u2 ^ 2 : ℝ) : ℂ)) (n / ((u1 / u2 : ℝ) : ℂ))) uf ut jf jt ↔
    SwitchedBranch f t ys0 ysh0 n (common (volts3 u1 uf)) (common (volts3 u2 ut)) (common (amps3 u1 jf))
      (common (amps3 u2 jt)) ∧
    ∀ p, SwitchedBranch f t ys1 ysh1 n (volts3 u1 uf p - common (volts3 u1 uf)) (volts3 u2 ut p - common (volts3 u2 ut))
      (amps3 u1 jf p - common (amps3 u1 jf)) (amps3 u2 jt p - common (amps3 u2 jt)) := by
  rw [flows3_iff, branch_units f t u1 u2 h1 h2 ys0 ysh0 n hn ho0]
  simp only [common_volts, common_amps, volts3, amps3, ← volts_sub, ← amps_sub]
  constructor
  · rintro ⟨a1, a2⟩
    exact ⟨a1, fun p => (branch_units f t u1 u2 h1 h2 ys1 ysh1 n hn ho1 _ _ _ _).mp (a2 p)⟩
  · rintro ⟨a1, a2⟩
    exact ⟨a1, fun p => (branch_units f t u1 u2 h1 h2 ys1 ysh1 n hn ho1 _ _ _ _).mpr (a2 p)⟩

/-! ## The remainder of an angle -/

theorem fmod_angle (x : ℝ) : Complex.exp (Complex.I * (fmod x (2 * Real.pi) : ℝ)) = Complex.exp (Complex.I * x) := by
  unfold fmod
  split
  · have : Complex.I * ((x - 2 * Real.pi * (⌊x / (2 * Real.pi)⌋ : ℝ) : ℝ) : ℂ) =
        Complex.I * x - ⌊x / (2 * Real.pi)⌋ * (2 * Real.pi * Complex.I) := by push_cast; ring
    rw [this, Complex.exp_sub, Complex.exp_int_mul_two_pi_mul_I, div_one]
  · have : Complex.I * ((x - 2 * Real.pi * (⌈x / (2 * Real.pi)⌉ : ℝ) : ℝ) : ℂ) =
        Complex.I * x - ⌈x / (2 * Real.pi)⌉ * (2 * Real.pi * Complex.I) := by push_cast; ring
    rw [this, Complex.exp_sub, Complex.exp_int_mul_two_pi_mul_I, div_one]

end PGM.Physical
