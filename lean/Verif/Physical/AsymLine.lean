import Verif.Physical.Lemmas

/-!
# C59: lines with unbalanced phases

Impedances in ohm between phases a, b, c and the neutral n, capacitances in farad; `uf`, `ut`, `jf`, `jt` are the per unit values of the
solver.
-/

namespace PGM.Physical

open PGM.Component Matrix

/-! ## Specification -/

/-- The impedance matrix of the phases. -/
def phaseImpedances (r x : Sym3 ℝ) : M3 :=
  !![⟨r.aa, x.aa⟩, ⟨r.ba, x.ba⟩, ⟨r.ca, x.ca⟩; ⟨r.ba, x.ba⟩, ⟨r.bb, x.bb⟩, ⟨r.cb, x.cb⟩; ⟨r.ca, x.ca⟩, ⟨r.cb, x.cb⟩, ⟨r.cc, x.cc⟩]

/-- The impedances between the phases and the neutral. -/
def neutralImpedances (rn xn : Neutral ℝ) : C3 := ![⟨rn.na, xn.na⟩, ⟨rn.nb, xn.nb⟩, ⟨rn.nc, xn.nc⟩]

/-- `c` is the capacitance matrix: with `c0` and `c1` the charges are `c1` times the voltage, and `c0` times the common part of it;
otherwise the entries are given. -/
def CapacitanceIs (i : AsymLineInput) (c : M3) : Prop :=
  (∀ c0 c1, i.c0 = some c0 → i.c1 = some c1 → ∀ (v : C3) p, c.mulVec v p = c1 * (v p - common v) + c0 * common v) ∧
  (i.c0 = none ∨ i.c1 = none →
    c = !![(i.c.aa : ℂ), i.c.ba, i.c.ca; (i.c.ba : ℂ), i.c.bb, i.c.cb; (i.c.ca : ℂ), i.c.cb, i.c.cc])

/-- The conductors of the line: with or without neutral. -/
def LineConductors (i : AsymLineInput) (c : M3) (freq : ℝ) : C3 → C3 → C3 → C3 → Prop :=
  match i.neutral with
  | none => Conductors (phaseImpedances i.r i.x) c freq
  | some (rn, xn) =>
    ConductorsNeutral (phaseImpedances i.r i.x) (neutralImpedances rn xn) ⟨rn.nn, xn.nn⟩ c freq

/-! ## Lemmas -/

theorem impedances_eq (r x : Sym3 ℝ) : impedances r x = phaseImpedances r x := by
  funext p q
  unfold impedances phaseImpedances Sym3.matrix
  fin_cases p <;> fin_cases q <;> simp [Complex.mk_eq_add_mul_I, mul_comm]

theorem kron_apply (r x : Sym3 ℝ) (rn xn : Neutral ℝ) (p q : Fin 3) :
    kron (impedances4 r x rn xn) p q = phaseImpedances r x p q -
      neutralImpedances rn xn p * neutralImpedances rn xn q * (1 / ⟨rn.nn, xn.nn⟩) := by
  unfold kron impedances4 matrix4 phaseImpedances neutralImpedances Sym3.matrix
  fin_cases p <;> fin_cases q <;> simp [Complex.mk_eq_add_mul_I, mul_comm]

/-- A neutral without voltage along it is eliminated by the Kron reduction. -/
theorem neutral_iff (i : AsymLineInput) (rn xn : Neutral ℝ) (hn : (⟨rn.nn, xn.nn⟩ : ℂ) ≠ 0) (c : M3) (freq : ℝ)
    (vf vt jf jt : C3) :
    ConductorsNeutral (phaseImpedances i.r i.x) (neutralImpedances rn xn) ⟨rn.nn, xn.nn⟩ c freq vf vt jf jt ↔
      Conductors (kron (impedances4 i.r i.x rn xn)) c freq vf vt jf jt := by
  have hmul : ∀ (j : C3) (p : Fin 3), (kron (impedances4 i.r i.x rn xn)).mulVec j p =
      (phaseImpedances i.r i.x).mulVec j p - neutralImpedances rn xn p * ((neutralImpedances rn xn 0 * j 0 +
        neutralImpedances rn xn 1 * j 1 + neutralImpedances rn xn 2 * j 2) / ⟨rn.nn, xn.nn⟩) := by
    intro j p
    simp only [Matrix.mulVec, dotProduct, Fin.sum_univ_three, kron_apply]
    field_simp
    ring
  unfold ConductorsNeutral Conductors
  constructor
  · rintro ⟨j, jn, h1, h2, h3, h4⟩
    refine ⟨j, ?_, h3, h4⟩
    funext p
    have hj : jn = -((neutralImpedances rn xn 0 * j 0 + neutralImpedances rn xn 1 * j 1 + neutralImpedances rn xn 2 * j 2) /
        ⟨rn.nn, xn.nn⟩) := by
      field_simp
      linear_combination -h2
    rw [Pi.sub_apply, h1 p, hmul, hj]
    ring
  · rintro ⟨j, h1, h3, h4⟩
    refine ⟨j, -((neutralImpedances rn xn 0 * j 0 + neutralImpedances rn xn 1 * j 1 + neutralImpedances rn xn 2 * j 2) /
        ⟨rn.nn, xn.nn⟩), ?_, ?_, h3, h4⟩
    · intro p
      have := congrFun h1 p
      rw [Pi.sub_apply, hmul] at this
      rw [this]; ring
    · field_simp
      ring

theorem lineConductors_iff (i : AsymLineInput) (hn : ∀ rn xn, i.neutral = some (rn, xn) → (⟨rn.nn, xn.nn⟩ : ℂ) ≠ 0) (c : M3)
    (freq : ℝ) (vf vt jf jt : C3) : LineConductors i c freq vf vt jf jt ↔ Conductors (zSeries i) c freq vf vt jf jt := by
  unfold LineConductors zSeries
  cases h : i.neutral with
  | none => dsimp only; rw [impedances_eq]
  | some w =>
    obtain ⟨rn, xn⟩ := w
    dsimp only
    exact neutral_iff i rn xn (hn rn xn h) c freq vf vt jf jt

theorem cMatrix_is (i : AsymLineInput) : CapacitanceIs i (cMatrix i) := by
  unfold CapacitanceIs
  constructor
  · intro c0 c1 h0 h1 v p
    unfold cMatrix
    rw [h0, h1]
    exact abcBlock_mulVec c1 c0 v p
  · intro h
    have e : ∀ o0 o1 : Option ℝ, o0 = none ∨ o1 = none → ({ i with c0 := o0, c1 := o1 } : AsymLineInput) = i →
        cMatrix i = fun p q => ((i.c.matrix p q : ℝ) : ℂ) := by
      intro o0 o1 ho hi
      rw [← hi]
      unfold cMatrix
      rcases ho with rfl | rfl
      · rfl
      · cases o0 <;> rfl
    have e' := e i.c0 i.c1 h rfl
    rw [e']
    funext p q
    unfold Sym3.matrix
    fin_cases p <;> fin_cases q <;> simp

/-- `asymLine_exact_partial` with conditions only for lines that are open at one side. -/
theorem asym_exact' (f t : Bool) (ys ysh : M3) (uf ut jf jt : C3)
    (h : f ≠ t → IsUnit ys.det ∧ IsUnit ysh.det ∧ IsUnit (ys + (1 / 2 : ℂ) • ysh).det ∧ ∀ i j, tolerance ≤ ‖ysh i j‖) :
    Flows3 (asymLineAsym f t ys ysh) uf ut jf jt ↔ SwitchedBranch3 f t ys ysh uf ut jf jt := by
  cases f <;> cases t
  · unfold SwitchedBranch3 Flows3
    simp only [asymLineAsym, BranchParam.zero, Bool.and_self, Bool.not_false, if_true, Bool.or_self, Bool.false_eq_true,
      if_false, Matrix.zero_mulVec, add_zero]
    constructor
    · rintro ⟨h5, h6⟩
      exact ⟨0, 0, by simp, by simp, fun _ => h5, fun _ => h6, by simp [h5], by simp [h6]⟩
    · rintro ⟨_, _, -, -, h5, h6, -⟩
      exact ⟨h5 trivial, h6 trivial⟩
  · obtain ⟨h1, h2, h3, h4⟩ := h (by simp); exact asymLine_exact_partial _ _ _ _ _ _ _ _ h1 h2 h3 h4
  · obtain ⟨h1, h2, h3, h4⟩ := h (by simp); exact asymLine_exact_partial _ _ _ _ _ _ _ _ h1 h2 h3 h4
  · unfold SwitchedBranch3 Flows3
    simp only [asymLineAsym, Bool.and_self, Bool.not_true, Bool.false_eq_true, if_false]
    have e1 : ∀ v w : C3, (ys + (1 / 2 : ℂ) • ysh).mulVec v + (-ys).mulVec w =
        (1 / 2 : ℂ) • ysh.mulVec v + ys.mulVec (v - w) := by
      intro v w
      rw [Matrix.add_mulVec, Matrix.smul_mulVec, Matrix.neg_mulVec, Matrix.mulVec_sub]
      abel
    have e2 : ∀ v w : C3, (-ys).mulVec w + (ys + (1 / 2 : ℂ) • ysh).mulVec v =
        (1 / 2 : ℂ) • ysh.mulVec v + ys.mulVec (v - w) := by
      intro v w
      rw [add_comm, e1]
    rw [e1, e2]
    constructor
    · rintro ⟨h1, h2⟩
      exact ⟨uf, ut, by simp, by simp, by simp, by simp, h1, h2⟩
    · rintro ⟨ef, et, h1, h2, -, -, h3, h4⟩
      rw [h1 trivial, h2 trivial] at h3 h4
      exact ⟨h3, h4⟩

theorem volts3_smul (u : ℝ) (v : C3) : volts3 u v = ((u / √3 : ℝ) : ℂ) • v := by
  funext p; rfl

theorem amps3_smul (u : ℝ) (v : C3) : amps3 u v = ((10 ^ 6 / u ^ 2 : ℝ) : ℂ) • ((u / √3 : ℝ) : ℂ) • v := by
  funext p
  show ((10 ^ 6 / (√3 * u) : ℝ) : ℂ) * v p = ((10 ^ 6 / u ^ 2 : ℝ) : ℂ) * (((u / √3 : ℝ) : ℂ) * v p)
  rw [← mul_assoc, ← Complex.ofReal_mul]
  congr 2
  by_cases hu : u = 0
  · subst hu; simp
  · have := sqrt3_ne
    field_simp

/-- From per unit to physical units. -/
theorem switched3_units (f t : Bool) (u : ℝ) (hu : u ≠ 0) (z c : M3) (hz : IsUnit z.det) (freq : ℝ) (uf ut jf jt : C3) :
    SwitchedBranch3 f t ((1 / ((10 ^ 6 / u ^ 2 : ℝ) : ℂ)) • z⁻¹)
      ((1 / ((10 ^ 6 / u ^ 2 : ℝ) : ℂ)) • ((2 * Complex.I * Real.pi * freq : ℂ) • c)) uf ut jf jt ↔
    Ends f t (Conductors z c freq) (volts3 u uf) (volts3 u ut) (amps3 u jf) (amps3 u jt) := by
  obtain ⟨b1, -⟩ := bases u u hu hu
  have hx : ((u / √3 : ℝ) : ℂ) ≠ 0 := by exact_mod_cast b1
  have hb : ((10 ^ 6 / u ^ 2 : ℝ) : ℂ) ≠ 0 := by
    have : (10 ^ 6 / u ^ 2 : ℝ) ≠ 0 := by positivity
    exact_mod_cast this
  simp only [volts3_smul, amps3_smul]
  generalize ((u / √3 : ℝ) : ℂ) = b at hx
  generalize ((10 ^ 6 / u ^ 2 : ℝ) : ℂ) = y at hb
  have hzc : ∀ v : C3, z.mulVec (z⁻¹.mulVec v) = v := fun v => by
    rw [Matrix.mulVec_mulVec, Matrix.mul_nonsing_inv _ hz, Matrix.one_mulVec]
  have hcz : ∀ v : C3, z⁻¹.mulVec (z.mulVec v) = v := fun v => by
    rw [Matrix.mulVec_mulVec, Matrix.nonsing_inv_mul _ hz, Matrix.one_mulVec]
  have key : ∀ ef et kf kt : C3,
      (kf = (1 / 2 : ℂ) • ((1 / y) • ((2 * Complex.I * Real.pi * freq : ℂ) • c)).mulVec ef +
        ((1 / y) • z⁻¹).mulVec (ef - et) ∧
       kt = (1 / 2 : ℂ) • ((1 / y) • ((2 * Complex.I * Real.pi * freq : ℂ) • c)).mulVec et +
        ((1 / y) • z⁻¹).mulVec (et - ef)) ↔
      Conductors z c freq (b • ef) (b • et) (y • b • kf) (y • b • kt) := by
    intro ef et kf kt
    unfold Conductors
    have hω : (2 * Real.pi * freq * Complex.I : ℂ) = 2 * Complex.I * Real.pi * freq := by ring
    rw [hω]
    generalize (2 * Complex.I * Real.pi * freq : ℂ) = w
    have hs : ∀ v w' : C3, y • b • ((1 / 2 : ℂ) • ((1 / y) • (w • c)).mulVec v + ((1 / y) • z⁻¹).mulVec w') =
        b • z⁻¹.mulVec w' + (1 / 2 : ℂ) • (w • c.mulVec (b • v)) := by
      intro v w'
      simp only [Matrix.smul_mulVec, Matrix.mulVec_smul, smul_add, smul_smul]
      rw [add_comm]
      congr 2
      · field_simp
      · field_simp
    have hyb : ∀ v w' : C3, y • b • v = y • b • w' → v = w' := by
      intro v w' h
      have h1 := smul_right_injective C3 hb h
      exact smul_right_injective C3 hx h1
    constructor
    · rintro ⟨rfl, rfl⟩
      refine ⟨b • z⁻¹.mulVec (ef - et), ?_, ?_, ?_⟩
      · rw [Matrix.mulVec_smul, hzc, smul_sub]
      · exact hs _ _
      · rw [hs, ← neg_sub ef et, Matrix.mulVec_neg, smul_neg]
    · rintro ⟨j, h1, h2, h3⟩
      have hj : b • z⁻¹.mulVec (ef - et) = j := by
        rw [← Matrix.mulVec_smul, smul_sub, h1, hcz]
      constructor
      · apply hyb
        rw [h2, hs, hj]
      · apply hyb
        rw [h3, hs, ← neg_sub ef et, Matrix.mulVec_neg, smul_neg, hj]
  unfold SwitchedBranch3 Ends
  constructor
  · rintro ⟨ef, et, e1, e2, e3, e4, e5⟩
    refine ⟨b • ef, b • et, fun h => by rw [e1 h], fun h => by rw [e2 h], fun h => by rw [e3 h, smul_zero, smul_zero],
      fun h => by rw [e4 h, smul_zero, smul_zero], ?_⟩
    exact (key ef et jf jt).mp e5
  · rintro ⟨ef, et, e1, e2, e3, e4, e5⟩
    have hinv : ∀ v : C3, b • b⁻¹ • v = v := fun v => by rw [smul_smul, mul_inv_cancel₀ hx, one_smul]
    have hinv' : ∀ v : C3, b⁻¹ • b • v = v := fun v => by rw [smul_smul, inv_mul_cancel₀ hx, one_smul]
    refine ⟨b⁻¹ • ef, b⁻¹ • et, fun h => by rw [e1 h, hinv'], fun h => by rw [e2 h, hinv'], fun h => ?_, fun h => ?_, ?_⟩
    · have := e3 h
      simpa [hb, hx] using this
    · have := e4 h
      simpa [hb, hx] using this
    · rw [key, hinv, hinv]
      exact e5

/-! ## C59 -/

/-- C59: a line with unbalanced phases consists of the given conductors: three phases and, if it is given, a neutral that is earthed at
both ends, with half of the capacitances at each end; for all switch positions, voltages and currents. A line that is open at
exactly one side needs capacitances of at least 1e-8 per unit in all entries, and matrices that can be inverted (see C28). -/
theorem asymLine_physical_partial (i : AsymLineInput) (freq u : ℝ) (hu : u ≠ 0) (l : AsymLine)
    (hl : mkAsymLine i freq u u = .ok l)
    (hn : ∀ rn xn, i.neutral = some (rn, xn) → (⟨rn.nn, xn.nn⟩ : ℂ) ≠ 0) (hz : IsUnit (zSeries i).det) (f t : Bool)
    (ho : f ≠ t → IsUnit l.yShunt.det ∧ IsUnit (l.ySeries + (1 / 2 : ℂ) • l.yShunt).det ∧
      ∀ p q, 10 ^ (-8 : ℤ) ≤ ‖l.yShunt p q‖) :
    ∃ c, CapacitanceIs i c ∧ ∀ uf ut jf jt : C3, Flows3 (l.asym f t) uf ut jf jt ↔
      Ends f t (LineConductors i c freq) (volts3 u uf) (volts3 u ut) (amps3 u jf) (amps3 u jt) := by
  refine ⟨cMatrix i, cMatrix_is i, fun uf ut jf jt => ?_⟩
  have hb : ((10 ^ 6 / u ^ 2 : ℝ) : ℂ) ≠ 0 := by
    have : (10 ^ 6 / u ^ 2 : ℝ) ≠ 0 := by positivity
    exact_mod_cast this
  have hE : ∀ vf vt kf kt, Ends f t (LineConductors i (cMatrix i) freq) vf vt kf kt ↔
      Ends f t (Conductors (zSeries i) (cMatrix i) freq) vf vt kf kt := by
    intro vf vt kf kt
    unfold Ends
    simp only [lineConductors_iff i hn]
  unfold mkAsymLine at hl
  split at hl
  · cases hl
  · cases hl
    rw [hE, ← switched3_units f t u hu (zSeries i) (cMatrix i) hz freq uf ut jf jt]
    unfold AsymLine.asym
    rw [asym_exact', baseY_eq u hu]
    intro hft
    obtain ⟨o1, o2, o3⟩ := ho hft
    refine ⟨?_, o1, o2, fun p q => ?_⟩
    · rw [Matrix.det_smul]
      refine IsUnit.mul ?_ ?_
      · rw [baseY_eq u hu]
        exact (isUnit_iff_ne_zero.mpr (one_div_ne_zero hb)).pow _
      · rw [Matrix.det_nonsing_inv]
        exact hz.ringInverse
    · unfold tolerance
      rw [show (1 / 100000000 : ℝ) = 10 ^ (-8 : ℤ) by norm_num]
      exact o3 p q

/-- The positive sequence part of a symmetric matrix. -/
theorem positiveAdmittance_eq (m : M3) (h : ∀ p q, m p q = m q p) :
    positiveAdmittance m = (m 0 0 + m 1 1 + m 2 2) / 3 - (m 0 1 + m 0 2 + m 1 2) / 3 := by
  have ha := a_add
  have h1 := a_mul_a2
  have h2 := a_sq
  have h3 := a2_mul_a2
  have s1 : star a = a2 := by
    unfold a a2
    apply Complex.ext
    · simp
    · simp; ring
  have s2 : star a2 = a := by rw [← s1, star_star]
  unfold positiveAdmittance
  rw [posSeq_eq]
  simp only [Matrix.mulVec, dotProduct, Fin.sum_univ_three]
  simp only [Matrix.cons_val_zero, Matrix.cons_val_one, Matrix.cons_val, s1, s2]
  rw [h 1 0, h 2 0, h 2 1]
  linear_combination ((m 0 1 + m 0 2 + m 1 2) / 3) * ha + ((m 1 1 + m 2 2) / 3) * h1 + (m 1 2 / 3) * h2 + (m 1 2 / 3) * h3

/-- C59, symmetric calculations with such a line: they use the positive sequence admittances, provided that the phases a and b couple to c
in the same way. Full statement: for every line; it is false, see `asymLine_sym_wrong`. -/
theorem asymLine_sym_partial (m : M3) (h : ∀ p q, m p q = m q p) (hab : m 0 2 = m 1 2) : positiveOf m = positiveAdmittance m := by
  rw [positiveAdmittance_eq m h]
  unfold positiveOf averageDiagonal averageOffDiagonal
  rw [h 1 0, h 2 0, h 2 1, hab]
  ring

/-- A line whose phase a is far from b and c: resistances of 2 ohm, and 1 ohm between b and c. -/
def farPhase : AsymLineInput :=
  ⟨⟨2, 2, 2, 0, 0, 1⟩, ⟨0, 0, 0, 0, 0, 0⟩, none, ⟨0, 0, 0, 0, 0, 0⟩, some 1, some 1⟩

/-- The same line with the names of the phases a and c exchanged. -/
def farPhase' : AsymLineInput :=
  ⟨⟨2, 2, 2, 1, 0, 0⟩, ⟨0, 0, 0, 0, 0, 0⟩, none, ⟨0, 0, 0, 0, 0, 0⟩, some 1, some 1⟩

theorem farPhase_inv : (zSeries farPhase)⁻¹ = !![1 / 2, 0, 0; 0, 2 / 3, -1 / 3; 0, -1 / 3, 2 / 3] := by
  apply Matrix.inv_eq_right_inv
  ext p q
  fin_cases p <;> fin_cases q <;>
    simp [zSeries, farPhase, impedances, Sym3.matrix, Matrix.mul_apply, Fin.sum_univ_three] <;> norm_num

theorem farPhase'_inv : (zSeries farPhase')⁻¹ = !![2 / 3, -1 / 3, 0; -1 / 3, 2 / 3, 0; 0, 0, 1 / 2] := by
  apply Matrix.inv_eq_right_inv
  ext p q
  fin_cases p <;> fin_cases q <;>
    simp [zSeries, farPhase', impedances, Sym3.matrix, Matrix.mul_apply, Fin.sum_univ_three] <;> norm_num

/-- C59 fails for symmetric calculations with a line whose phases couple differently: the series admittance that they use is not that of
the positive sequence, and it changes when the phases are given other names. -/
theorem asymLine_sym_wrong :
    ∃ l l', mkAsymLine farPhase 50 10000 10000 = .ok l ∧ mkAsymLine farPhase' 50 10000 10000 = .ok l' ∧
      positiveOf l.ySeries ≠ positiveAdmittance l.ySeries ∧ l.sym true true ≠ l'.sym true true := by
  have ht : ¬ (|(10000 : ℝ) - 10000| > tolerance) := by
    unfold tolerance
    rw [sub_self, abs_zero]
    norm_num
  have hb : baseY 10000 = 1 / 100 := by rw [baseY_eq _ (by norm_num)]; norm_num
  have h1 : positiveOf ((1 / (baseY 10000 : ℂ)) • (zSeries farPhase)⁻¹) = 700 / 9 := by
    rw [farPhase_inv, hb]
    unfold positiveOf averageDiagonal averageOffDiagonal
    simp
    norm_num
  have h2 : positiveOf ((1 / (baseY 10000 : ℂ)) • (zSeries farPhase')⁻¹) = 650 / 9 := by
    rw [farPhase'_inv, hb]
    unfold positiveOf averageDiagonal averageOffDiagonal
    simp
    norm_num
  have h1s : positiveAdmittance ((1 / (baseY 10000 : ℂ)) • (zSeries farPhase)⁻¹) = 650 / 9 := by
    rw [positiveAdmittance_eq, farPhase_inv, hb]
    · simp
      norm_num
    · rw [farPhase_inv]
      intro p q
      fin_cases p <;> fin_cases q <;> simp
  unfold mkAsymLine
  rw [if_neg ht, if_neg ht]
  refine ⟨_, _, rfl, rfl, ?_, ?_⟩
  · dsimp only
    rw [h1, h1s]
    norm_num
  · intro h
    have := congrArg BranchParam.yft h
    unfold AsymLine.sym calcSym at this
    simp only [Bool.and_self, Bool.not_true, Bool.false_eq_true, if_false, h1, h2] at this
    simp at this

/-- Non-vacuity: the witness without neutral, closed at both sides, meets the hypotheses of `asymLine_physical_partial`. -/
example : IsUnit (zSeries farPhase).det ∧ (∀ rn xn, farPhase.neutral = some (rn, xn) → (⟨rn.nn, xn.nn⟩ : ℂ) ≠ 0) := by
  refine ⟨?_, fun rn xn h => by cases h⟩
  have : (zSeries farPhase).det = 6 := by
    rw [Matrix.det_fin_three]
    simp [zSeries, farPhase, impedances, Sym3.matrix]
    norm_num
  rw [this]
  exact isUnit_iff_ne_zero.mpr (by norm_num)

/-- Non-vacuity: a line with a neutral. -/
example : ∃ i : AsymLineInput, (∃ rn xn, i.neutral = some (rn, xn) ∧ (⟨rn.nn, xn.nn⟩ : ℂ) ≠ 0) ∧ IsUnit (zSeries i).det := by
  refine ⟨⟨⟨2, 2, 2, 0, 0, 0⟩, ⟨0, 0, 0, 0, 0, 0⟩, some (⟨1, 1, 0, 0⟩, ⟨0, 0, 0, 0⟩), ⟨0, 0, 0, 0, 0, 0⟩, some 1, some 1⟩,
    ⟨_, _, rfl, fun h => by simpa using congrArg Complex.re h⟩, ?_⟩
  have : (zSeries ⟨⟨2, 2, 2, 0, 0, 0⟩, ⟨0, 0, 0, 0, 0, 0⟩, some (⟨1, 1, 0, 0⟩, ⟨0, 0, 0, 0⟩), ⟨0, 0, 0, 0, 0, 0⟩,
      some 1, some 1⟩).det = 4 := by
    rw [Matrix.det_fin_three]
    simp [zSeries, kron, impedances4, matrix4, Sym3.matrix]
    norm_num
  rw [this]
  exact isUnit_iff_ne_zero.mpr (by norm_num)

end PGM.Physical
