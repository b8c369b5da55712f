import Verif.Common.Sequence
import Verif.Component.Clock
import Mathlib.Analysis.Normed.Group.Basic

/-!
# Branch admittances (property C28)

Prefix of all paths: `P/` = `/repo/power_grid_model_c/power_grid_model/include/power_grid_model/`. All numbers are exact
complex numbers.
-/

namespace PGM.Component

/-- `BranchCalcParam`: the four blocks of the two-port admittance, in the order of `value`. -/
structure BranchParam (T : Type) where
  yff : T
  yft : T
  ytf : T
  ytt : T

/-- `BranchCalcParam<sym>{}`: all zero. -/
def BranchParam.zero {T : Type} [Zero T] : BranchParam T := ⟨0, 0, 0, 0⟩

def BranchParam.map {T S R : Type} (f : T → S → R) (p : BranchParam T) (q : BranchParam S) : BranchParam R :=
  ⟨f p.yff q.yff, f p.yft q.yft, f p.ytf q.ytf, f p.ytt q.ytt⟩

/-- `numerical_tolerance`, `P/common/common.hpp`. -/
noncomputable def tolerance : ℝ := 1 / 100000000

open Classical in
/-- `branch_shunt` of a branch that is connected at one side, `P/component/branch.hpp` lines 207-214. -/
noncomputable def branchShunt (ys ysh : ℂ) : ℂ :=
  if ‖ysh‖ < tolerance then 0 else (1 / 2) * ysh + 1 / (1 / ys + 2 / ysh)

/-- `Branch::calc_param_y_sym`, `P/component/branch.hpp` lines 196-228. -/
noncomputable def calcSym (f t : Bool) (ys ysh r : ℂ) : BranchParam ℂ :=
  let tap : ℂ := (‖r‖ : ℂ)
  if !(f && t) then
    if f || t then
      ⟨if f then (1 / tap / tap) * branchShunt ys ysh else 0, 0, 0, if t then branchShunt ys ysh else 0⟩
    else .zero
  else
    let ytt := ys + (1 / 2) * ysh
    ⟨(1 / tap / tap) * ytt, (-1 / star r) * ys, (-1 / r) * ys, ytt⟩

/-- The composition of one phase-domain block in `calc_param_y_asym`. -/
noncomputable def abcBlock (y1 y0 : ℂ) : M3 := balancedMatrix ((2 * y1 + y0) / 3) ((y0 - y1) / 3)

/-- `Branch::calc_param_y_asym`, `P/component/branch.hpp` lines 230-248. -/
noncomputable def calcAsym (f t : Bool) (y1s y1sh y0s y0sh r : ℂ) : BranchParam M3 :=
  (calcSym f t y1s y1sh r).map abcBlock (calcSym f t y0s y0sh r)

/-- `Branch::calc_param`, `P/component/branch.hpp` lines 68-78 with `energized`, lines 81-83. -/
def branchCalc {T : Type} [Zero T] (connected f t : Bool) (p : BranchParam T) : BranchParam T :=
  if connected && (f || t) then p else .zero

/-- Winding data that `Transformer::asym_calc_param` uses. -/
structure TransformerSeq where
  ySeries : ℂ
  yShunt : ℂ
  y0Shunt : ℂ
  k : ℝ
  clock : Int
  windingFrom : Winding
  windingTo : Winding
  zgFrom : ℂ
  zgTo : ℂ
  lowSusceptance : ℝ

/-- `Transformer::sym_calc_param`, `P/component/transformer.hpp` lines 243-246. -/
noncomputable def transformerSym (f t : Bool) (d : TransformerSeq) : BranchParam ℂ :=
  calcSym f t d.ySeries d.yShunt (d.k * phaseFactor d.clock)

/-- `zero_seq_available`, `P/component/transformer.hpp` lines 311-321. -/
def zeroSeqAvailable (this other : Winding) : Bool :=
  match this with
  | .wyeN => other == .wyeN || other == .delta
  | .zigzagN => true
  | _ => false

open Classical in
/-- The zero sequence block before the low susceptance is added, `P/component/transformer.hpp` lines 254-308. -/
noncomputable def transformerZero (f t : Bool) (d : TransformerSeq) : BranchParam ℂ :=
  let p : BranchParam ℂ :=
    if d.windingFrom = .wyeN ∧ d.windingTo = .wyeN then
      let shift : Int := if d.clock = 2 ∨ d.clock = 6 ∨ d.clock = 10 then 6 else 0
      let z0 := 1 / d.ySeries + 3 * (d.zgTo + d.zgFrom / d.k / d.k)
      calcSym f t (1 / z0) d.y0Shunt (d.k * phaseFactor shift)
    else if d.windingFrom = .wyeN ∧ f = true then
      let y0 := if d.windingTo = .delta then d.y0Shunt + d.ySeries else d.y0Shunt
      if y0 ≠ 0 then { BranchParam.zero with yff := (1 / (1 / y0 + 3 * d.zgFrom / d.k / d.k)) / d.k / d.k } else .zero
    else if d.windingTo = .wyeN ∧ t = true then
      let y0 := if d.windingFrom = .delta then d.y0Shunt + d.ySeries else d.y0Shunt
      if y0 ≠ 0 then { BranchParam.zero with ytt := 1 / (1 / y0 + 3 * d.zgTo) } else .zero
    else .zero
  let p := if d.windingFrom = .zigzagN ∧ f = true then
    { p with yff := (1 / ((1 / d.ySeries) * (1 / 10) + 3 * d.zgFrom / d.k / d.k)) / d.k / d.k } else p
  if d.windingTo = .zigzagN ∧ t = true then
    { p with ytt := 1 / ((1 / d.ySeries) * (1 / 10) + 3 * d.zgTo) } else p

/-- The zero sequence block with the low susceptance, lines 310-330. -/
noncomputable def transformerZeroLow (f t : Bool) (d : TransformerSeq) : BranchParam ℂ :=
  let p := transformerZero f t d
  let p := if !zeroSeqAvailable d.windingFrom d.windingTo && f then
    { p with yff := p.yff + ⟨0, d.lowSusceptance⟩ } else p
  if !zeroSeqAvailable d.windingTo d.windingFrom && t then { p with ytt := p.ytt + ⟨0, d.lowSusceptance⟩ } else p

/-- One phase-domain block, `dot(sym_matrix, y012, sym_matrix_inv)`, lines 337-342. -/
noncomputable def transformBlock (y0 y1 y2 : ℂ) : M3 :=
  symMatrix * Matrix.diagonal ![y0, y1, y2] * symMatrixInv

/-- `Transformer::asym_calc_param`, `P/component/transformer.hpp` lines 247-345. -/
noncomputable def transformerAsym (f t : Bool) (d : TransformerSeq) : BranchParam M3 :=
  let p1 := calcSym f t d.ySeries d.yShunt (d.k * phaseFactor d.clock)
  let p2 := calcSym f t d.ySeries d.yShunt (d.k * phaseFactor (-d.clock))
  let p0 := transformerZeroLow f t d
  ⟨transformBlock p0.yff p1.yff p2.yff, transformBlock p0.yft p1.yft p2.yft,
   transformBlock p0.ytf p1.ytf p2.ytf, transformBlock p0.ytt p1.ytt p2.ytt⟩

open Classical in
/-- `AsymLine::asym_calc_param`, `P/component/asym_line.hpp` lines 105-130. -/
noncomputable def asymLineAsym (f t : Bool) (ys ysh : M3) : BranchParam M3 :=
  if !(f && t) then
    if f || t then
      let shunt : M3 := if ∀ i j, tolerance ≤ ‖ysh i j‖ then (1 / 2 : ℂ) • ysh + (ys⁻¹ + (2 : ℂ) • ysh⁻¹)⁻¹ else 0
      ⟨if f then shunt else 0, 0, 0, if t then shunt else 0⟩
    else .zero
  else
    let ytt := ys + (1 / 2 : ℂ) • ysh
    ⟨ytt, -ys, -ys, ytt⟩

/-! ## Specification

A branch is an ideal transformer with complex ratio `r` at the from side followed by a Π circuit: series admittance `ys`
between two shunts of `ysh / 2` each. A switch sits between each bus and the branch. -/

/-- The circuit: `uf`, `ut` are the voltages at the ends of the branch and `jf`, `jt` the currents into it. The ideal
transformer divides the voltage by `r` and conserves complex power. -/
def PiCircuit (ys ysh r uf ut jf jt : ℂ) : Prop :=
  ∃ v j, uf = r * v ∧ uf * star jf = v * star j ∧ star j = r * star jf ∧
    j = (ysh / 2) * v + ys * (v - ut) ∧ jt = (ysh / 2) * ut + ys * (ut - v)

/-- The branch with its switches: a closed switch connects the end to the bus, through an open switch no current flows and
the voltage of the end is whatever the circuit makes it. -/
def SwitchedBranch (f t : Bool) (ys ysh r uf ut jf jt : ℂ) : Prop :=
  ∃ ef et, (f = true → ef = uf) ∧ (t = true → et = ut) ∧ (f = false → jf = 0) ∧ (t = false → jt = 0) ∧
    PiCircuit ys ysh r ef et jf jt

/-- The three-phase circuit without ideal transformer, with matrices. -/
def SwitchedBranch3 (f t : Bool) (ys ysh : M3) (uf ut jf jt : C3) : Prop :=
  ∃ ef et : C3, (f = true → ef = uf) ∧ (t = true → et = ut) ∧ (f = false → jf = 0) ∧ (t = false → jt = 0) ∧
    jf = (1 / 2 : ℂ) • ysh.mulVec ef + ys.mulVec (ef - et) ∧ jt = (1 / 2 : ℂ) • ysh.mulVec et + ys.mulVec (et - ef)

/-- The currents that a two-port admittance gives. -/
def Flows (p : BranchParam ℂ) (uf ut jf jt : ℂ) : Prop := jf = p.yff * uf + p.yft * ut ∧ jt = p.ytf * uf + p.ytt * ut

/-- The currents that a three-phase two-port admittance gives. -/
def Flows3 (p : BranchParam M3) (uf ut jf jt : C3) : Prop :=
  jf = p.yff.mulVec uf + p.yft.mulVec ut ∧ jt = p.ytf.mulVec uf + p.ytt.mulVec ut

/-! ## C28: single-phase form -/

theorem norm_sq_cast (r : ℂ) : (‖r‖ : ℂ) * (‖r‖ : ℂ) = r * star r := by
  have := Complex.mul_conj' r
  rw [show (star r) = (starRingEnd ℂ) r from rfl, this]
  push_cast
  ring

/-- The circuit solved for the branch ends. -/
theorem piCircuit_iff (ys ysh r uf ut jf jt : ℂ) (hr : r ≠ 0) :
    PiCircuit ys ysh r uf ut jf jt ↔
      jf = (ys + ysh / 2) / (r * star r) * uf - ys / star r * ut ∧ jt = (ys + ysh / 2) * ut - ys / r * uf := by
  have hs : star r ≠ 0 := by simpa using hr
  have hstar : ∀ j jf : ℂ, star j = r * star jf ↔ j = star r * jf := by
    intro j jf
    constructor
    · intro h
      have := congrArg star h
      simpa [mul_comm] using this
    · rintro rfl
      simp [mul_comm]
  constructor
  · rintro ⟨v, j, h1, h2, h3, h4, h5⟩
    rw [hstar] at h3
    subst h1
    have hj : jf = j / star r := by rw [h3]; field_simp
    rw [hj, h4, h5]
    constructor <;> field_simp <;> ring
  · rintro ⟨h1, h2⟩
    refine ⟨uf / r, star r * jf, by field_simp, ?_, by simp [mul_comm], ?_, ?_⟩
    · have : star (star r * jf) = r * star jf := by simp [mul_comm]
      rw [this]; field_simp
    · rw [h1]; field_simp; ring
    · rw [h2]; field_simp; ring

theorem branchShunt_eq (ys ysh : ℂ) (hys : ys ≠ 0) (hsum : ys + ysh / 2 ≠ 0) (hsh : tolerance ≤ ‖ysh‖ ∨ ysh = 0) :
    branchShunt ys ysh = ysh / 2 + ys * ysh / 2 / (ys + ysh / 2) := by
  unfold branchShunt
  rcases hsh with h | h
  · rw [if_neg (not_lt.mpr h)]
    have hne : ysh ≠ 0 := by
      rintro rfl
      rw [norm_zero] at h
      unfold tolerance at h
      norm_num at h
    have h3 : 1 / ys + 2 / ysh ≠ 0 := by
      intro hz
      apply hsum
      field_simp at hz ⊢
      linear_combination hz
    have h4 : ysh + ys * 2 ≠ 0 := by
      intro hz; apply hsum; linear_combination hz / 2
    have h5 : ys * 2 + ysh ≠ 0 := by
      intro hz; apply hsum; linear_combination hz / 2
    field_simp
    ring
  · subst h
    rw [if_pos (by rw [norm_zero]; unfold tolerance; norm_num)]
    simp

/-- C28: for every switch position, the admittances give exactly the currents of the switched circuit: those of the closed
branch, of the branch with zero current forced at its open side, and none for the branch that is open at both sides. The
hypotheses exclude circuits that do not determine the current (a resonance of the series with the open shunt), and shunts
that are nonzero but smaller than the tolerance, for which see `tiny_shunt_error`. -/
theorem branch_exact (f t : Bool) (ys ysh r uf ut jf jt : ℂ) (hr : r ≠ 0) (hys : ys ≠ 0) (hsum : ys + ysh / 2 ≠ 0)
    (hsh : tolerance ≤ ‖ysh‖ ∨ ysh = 0) :
    Flows (calcSym f t ys ysh r) uf ut jf jt ↔ SwitchedBranch f t ys ysh r uf ut jf jt := by
  have hs : star r ≠ 0 := by simpa using hr
  have hn : (1 / (‖r‖ : ℂ) / (‖r‖ : ℂ)) = 1 / (r * star r) := by
    rw [div_div, norm_sq_cast]
  have hb := branchShunt_eq ys ysh hys hsum hsh
  obtain ⟨w, rfl⟩ : ∃ w, ysh = 2 * (w - ys) := ⟨ys + ysh / 2, by ring⟩
  have e1 : ys + 2 * (w - ys) / 2 = w := by ring
  have e2 : ys + (1 / 2) * (2 * (w - ys)) = w := by ring
  rw [e1] at hb hsum
  have hpi : ∀ uf ut jf jt, PiCircuit ys (2 * (w - ys)) r uf ut jf jt ↔
      jf = w / (r * star r) * uf - ys / star r * ut ∧ jt = w * ut - ys / r * uf := by
    intro uf ut jf jt; rw [piCircuit_iff _ _ _ _ _ _ _ hr, e1]
  unfold SwitchedBranch
  cases f <;> cases t
  · -- both open
    simp only [calcSym, BranchParam.zero, Flows, zero_mul, add_zero, Bool.and_self, Bool.not_false, if_true, Bool.or_self,
      Bool.false_eq_true, if_false]
    constructor
    · rintro ⟨h1, h2⟩
      refine ⟨0, 0, by simp, by simp, fun _ => h1, fun _ => h2, ?_⟩
      rw [hpi]
      simp [h1, h2]
    · rintro ⟨ef, et, -, -, h1, h2, -⟩
      exact ⟨h1 trivial, h2 trivial⟩
  · -- from open
    simp only [calcSym, Flows, Bool.false_and, Bool.not_false, if_true, Bool.false_or, Bool.false_eq_true, if_false,
      zero_mul, add_zero, zero_add, hb]
    constructor
    · rintro ⟨h1, h2⟩
      refine ⟨r * (ys / w) * ut, ut, by simp, by simp, fun _ => h1, by simp, ?_⟩
      rw [hpi, h1, h2]
      constructor <;> field_simp <;> ring
    · rintro ⟨ef, et, -, h1, h2, -, h3⟩
      rw [hpi] at h3
      have h1 := h1 trivial
      have h2 := h2 trivial
      subst h1
      refine ⟨h2, ?_⟩
      obtain ⟨h3, h5⟩ := h3
      rw [h2] at h3
      have he : ef = r * (ys / w) * et := by
        field_simp at h3 ⊢
        linear_combination -h3
      rw [h5, he]
      field_simp
      ring
  · -- to open
    simp only [calcSym, Flows, Bool.and_false, Bool.not_false, if_true, Bool.or_false, Bool.false_eq_true, if_false,
      zero_mul, add_zero, zero_add, hb, hn]
    constructor
    · rintro ⟨h1, h2⟩
      refine ⟨uf, ys / w / r * uf, by simp, by simp, by simp, fun _ => h2, ?_⟩
      rw [hpi, h1, h2]
      constructor <;> field_simp <;> ring
    · rintro ⟨ef, et, h1, -, -, h2, h3⟩
      rw [hpi] at h3
      have h1 := h1 trivial
      have h2 := h2 trivial
      subst h1
      refine ⟨?_, h2⟩
      obtain ⟨h3, h5⟩ := h3
      rw [h2] at h5
      have he : et = ys / w / r * ef := by
        field_simp at h5 ⊢
        linear_combination -h5
      rw [h3, he]
      field_simp
      ring
  · -- closed
    simp only [calcSym, Flows, Bool.and_self, Bool.not_true, Bool.false_eq_true, if_false, hn, e2]
    constructor
    · rintro ⟨h1, h2⟩
      refine ⟨uf, ut, by simp, by simp, by simp, by simp, ?_⟩
      rw [hpi, h1, h2]
      constructor <;> field_simp <;> ring
    · rintro ⟨ef, et, h1, h2, -, -, h3⟩
      rw [h1 trivial, h2 trivial, hpi] at h3
      rw [h3.1, h3.2]
      constructor <;> field_simp <;> ring

/-- C28: a branch that is open at both sides, or that no source reaches, has no admittance at all. -/
theorem branch_dead {T : Type} [Zero T] (connected f t : Bool) (p : BranchParam T)
    (h : connected = false ∨ (f = false ∧ t = false)) : branchCalc connected f t p = ⟨0, 0, 0, 0⟩ := by
  rcases h with h | ⟨h1, h2⟩
  · subst h; rfl
  · subst h1 h2; cases connected <;> rfl

/-- Non-vacuity: a line with a shunt, open at the to side, fed with 2: the current is 2 * (1 + 1 * 2 / 2 / (1 + 1)) = 3. -/
example : SwitchedBranch true false 1 2 1 2 7 3 0 := by
  rw [← branch_exact true false 1 2 1 2 7 3 0 (by norm_num) (by norm_num) (by norm_num) (by left; norm_num [tolerance])]
  unfold Flows
  simp only [calcSym, branchShunt, tolerance]
  norm_num

/-- The tolerance makes the admittance inexact for a tiny nonzero shunt: the code gives no current where there is one. -/
theorem tiny_shunt_inexact :
    ∃ ys ysh uf jf : ℂ, ys ≠ 0 ∧ ys + ysh / 2 ≠ 0 ∧ SwitchedBranch true false ys ysh 1 uf 0 jf 0 ∧
      ¬ Flows (calcSym true false ys ysh 1) uf 0 jf 0 := by
  refine ⟨1, 2 / 1000000000, 1000000001, (1 + 1 / 1000000000) * 1000000001 - 1000000000, by norm_num, by norm_num, ?_, ?_⟩
  · refine ⟨1000000001, 1000000000, by simp, by simp, by simp, by simp, ?_⟩
    rw [piCircuit_iff _ _ _ _ _ _ _ (by norm_num)]
    simp
    norm_num
  · unfold Flows
    simp only [calcSym, branchShunt, tolerance]
    norm_num

/-- C28: how far off a tiny shunt can make it: the neglected current is at most 1.5e-8 per unit times the voltage behind the
ideal transformer, when the series admittance is at least as large as the shunt. -/
theorem tiny_shunt_error (ys ysh r uf ut jf : ℂ) (hr : r ≠ 0) (hsmall : ‖ysh‖ < tolerance) (hys : ys ≠ 0)
    (hle : ‖ysh‖ ≤ ‖ys‖) (hj : SwitchedBranch true false ys ysh r uf ut jf 0) :
    Flows (calcSym true false ys ysh r) uf ut 0 0 ∧ ‖jf‖ ≤ (3 / 2) * tolerance * ‖uf‖ / ‖r‖ ^ 2 := by
  have hs : star r ≠ 0 := by simpa using hr
  constructor
  · unfold Flows
    simp only [calcSym, branchShunt]
    rw [if_pos hsmall]
    simp
  · have hden : ‖ys‖ ≤ ‖2 * ys + ysh‖ := by
      have h1 : ‖2 * ys‖ ≤ ‖2 * ys + ysh‖ + ‖ysh‖ := by
        have h := norm_sub_le (2 * ys + ysh) ysh
        rwa [show 2 * ys + ysh - ysh = 2 * ys by ring] at h
      have : ‖2 * ys‖ = 2 * ‖ys‖ := by rw [norm_mul]; norm_num
      linarith
    have hpos : 0 < ‖ys‖ := norm_pos_iff.mpr hys
    have h4 : 2 * ys + ysh ≠ 0 := norm_pos_iff.mp (lt_of_lt_of_le hpos hden)
    obtain ⟨ef, et, h1, -, -, h2, h3⟩ := hj
    rw [piCircuit_iff _ _ _ _ _ _ _ hr] at h3
    have h1 := h1 rfl
    subst h1
    obtain ⟨h3, h5⟩ := h3
    have h6 : jf = (ysh * (1 / 2 + ys / (2 * ys + ysh))) / (r * star r) * ef := by
      obtain ⟨w, rfl⟩ : ∃ w, ysh = w - 2 * ys := ⟨2 * ys + ysh, by ring⟩
      have e1 : 2 * ys + (w - 2 * ys) = w := by ring
      have e2 : ys + (w - 2 * ys) / 2 = w / 2 := by ring
      rw [e1] at h4 ⊢
      rw [e2] at h3 h5
      have he : et = 2 * ys / w / r * ef := by
        field_simp at h5 ⊢
        linear_combination -h5
      rw [h3, he]
      field_simp
      ring
    have h7 : ‖1 / 2 + ys / (2 * ys + ysh)‖ ≤ 3 / 2 := by
      refine le_trans (norm_add_le _ _) ?_
      have : ‖ys / (2 * ys + ysh)‖ ≤ 1 := by
        rw [norm_div]
        exact div_le_one_of_le₀ hden (norm_nonneg _)
      have h12 : ‖(1 / 2 : ℂ)‖ = 1 / 2 := by norm_num
      rw [h12]
      linarith
    have h8 : ‖r * star r‖ = ‖r‖ ^ 2 := by rw [norm_mul, norm_star, sq]
    rw [h6, norm_mul, norm_div, norm_mul, h8, div_mul_eq_mul_div]
    apply div_le_div_of_nonneg_right _ (by positivity)
    have : ‖ysh‖ * ‖1 / 2 + ys / (2 * ys + ysh)‖ ≤ tolerance * (3 / 2) :=
      mul_le_mul (le_of_lt hsmall) h7 (norm_nonneg _) (by unfold tolerance; norm_num)
    have h9 := mul_le_mul_of_nonneg_right this (norm_nonneg ef)
    linarith

/-! ## C28: three-phase form -/

theorem abcBlock_zero (y1 y0 : ℂ) : (abcBlock y1 y0).mulVec zeroSeq = y0 • zeroSeq := balanced_zero y0 y1

theorem abcBlock_pos (y1 y0 : ℂ) : (abcBlock y1 y0).mulVec posSeq = y1 • posSeq :=
  balanced_sum_zero y0 y1 _ posSeq_sum

theorem abcBlock_neg (y1 y0 : ℂ) : (abcBlock y1 y0).mulVec negSeq = y1 • negSeq :=
  balanced_sum_zero y0 y1 _ negSeq_sum

theorem mulVec_seq (M : M3) (y u : ℂ) (s : C3) (h : M.mulVec s = y • s) : M.mulVec (u • s) = (y * u) • s := by
  rw [Matrix.mulVec_smul, h, smul_smul, mul_comm]

/-- Currents of one sequence: voltages and currents are multiples of `s` and obey the single-phase admittances `p`. -/
theorem flows3_of_seq (q : BranchParam M3) (p : BranchParam ℂ) (s : C3)
    (h1 : q.yff.mulVec s = p.yff • s) (h2 : q.yft.mulVec s = p.yft • s)
    (h3 : q.ytf.mulVec s = p.ytf • s) (h4 : q.ytt.mulVec s = p.ytt • s) (uf ut jf jt : ℂ) (h : Flows p uf ut jf jt) :
    Flows3 q (uf • s) (ut • s) (jf • s) (jt • s) := by
  unfold Flows at h
  unfold Flows3
  rw [mulVec_seq _ _ _ _ h1, mulVec_seq _ _ _ _ h2, mulVec_seq _ _ _ _ h3, mulVec_seq _ _ _ _ h4, h.1, h.2,
    add_smul, add_smul]
  exact ⟨rfl, rfl⟩

theorem calcAsym_blocks (f t : Bool) (y1s y1sh y0s y0sh r : ℂ) :
    (calcAsym f t y1s y1sh y0s y0sh r).yff = abcBlock (calcSym f t y1s y1sh r).yff (calcSym f t y0s y0sh r).yff ∧
    (calcAsym f t y1s y1sh y0s y0sh r).yft = abcBlock (calcSym f t y1s y1sh r).yft (calcSym f t y0s y0sh r).yft ∧
    (calcAsym f t y1s y1sh y0s y0sh r).ytf = abcBlock (calcSym f t y1s y1sh r).ytf (calcSym f t y0s y0sh r).ytf ∧
    (calcAsym f t y1s y1sh y0s y0sh r).ytt = abcBlock (calcSym f t y1s y1sh r).ytt (calcSym f t y0s y0sh r).ytt := by
  unfold calcAsym BranchParam.map
  exact ⟨rfl, rfl, rfl, rfl⟩

theorem transformBlock_pos (y0 y1 y2 : ℂ) : (transformBlock y0 y1 y2).mulVec posSeq = y1 • posSeq := transform_pos y0 y1 y2
theorem transformBlock_neg (y0 y1 y2 : ℂ) : (transformBlock y0 y1 y2).mulVec negSeq = y2 • negSeq := transform_neg y0 y1 y2
theorem transformBlock_zero (y0 y1 y2 : ℂ) : (transformBlock y0 y1 y2).mulVec zeroSeq = y0 • zeroSeq :=
  transform_zero y0 y1 y2

/-- C28: a three-phase line or link behaves in each balanced system of voltages like the single-phase branch with the
positive sequence data (positive and negative sequence) or the zero sequence data. -/
theorem branch3_sequences (f t : Bool) (y1s y1sh y0s y0sh r uf ut jf jt : ℂ) :
    (Flows (calcSym f t y1s y1sh r) uf ut jf jt →
      Flows3 (calcAsym f t y1s y1sh y0s y0sh r) (uf • posSeq) (ut • posSeq) (jf • posSeq) (jt • posSeq)) ∧
    (Flows (calcSym f t y1s y1sh r) uf ut jf jt →
      Flows3 (calcAsym f t y1s y1sh y0s y0sh r) (uf • negSeq) (ut • negSeq) (jf • negSeq) (jt • negSeq)) ∧
    (Flows (calcSym f t y0s y0sh r) uf ut jf jt →
      Flows3 (calcAsym f t y1s y1sh y0s y0sh r) (uf • zeroSeq) (ut • zeroSeq) (jf • zeroSeq) (jt • zeroSeq)) := by
  obtain ⟨h1, h2, h3, h4⟩ := calcAsym_blocks f t y1s y1sh y0s y0sh r
  refine ⟨flows3_of_seq _ _ _ ?_ ?_ ?_ ?_ uf ut jf jt, flows3_of_seq _ _ _ ?_ ?_ ?_ ?_ uf ut jf jt,
    flows3_of_seq _ _ _ ?_ ?_ ?_ ?_ uf ut jf jt⟩ <;>
  simp only [h1, h2, h3, h4, abcBlock_pos, abcBlock_neg, abcBlock_zero]

/-- C28: a three-phase transformer behaves in positive sequence like the single-phase one, and in negative sequence like the
one with the opposite phase shift, whatever its windings and switches. -/
theorem transformer3_sequences (f t : Bool) (d : TransformerSeq) (uf ut jf jt : ℂ) :
    (Flows (transformerSym f t d) uf ut jf jt →
      Flows3 (transformerAsym f t d) (uf • posSeq) (ut • posSeq) (jf • posSeq) (jt • posSeq)) ∧
    (Flows (transformerSym f t { d with clock := -d.clock }) uf ut jf jt →
      Flows3 (transformerAsym f t d) (uf • negSeq) (ut • negSeq) (jf • negSeq) (jt • negSeq)) ∧
    (Flows (transformerZeroLow f t d) uf ut jf jt →
      Flows3 (transformerAsym f t d) (uf • zeroSeq) (ut • zeroSeq) (jf • zeroSeq) (jt • zeroSeq)) := by
  unfold transformerAsym transformerSym
  refine ⟨flows3_of_seq _ _ _ ?_ ?_ ?_ ?_ uf ut jf jt, flows3_of_seq _ _ _ ?_ ?_ ?_ ?_ uf ut jf jt,
    flows3_of_seq _ _ _ ?_ ?_ ?_ ?_ uf ut jf jt⟩ <;>
  simp only [transformBlock_pos, transformBlock_neg, transformBlock_zero]

theorem calcSym_open_from (t : Bool) (ys ysh r : ℂ) :
    (calcSym false t ys ysh r).yff = 0 ∧ (calcSym false t ys ysh r).yft = 0 ∧ (calcSym false t ys ysh r).ytf = 0 := by
  cases t <;> simp [calcSym, BranchParam.zero]

theorem calcSym_open_to (f : Bool) (ys ysh r : ℂ) :
    (calcSym f false ys ysh r).ytt = 0 ∧ (calcSym f false ys ysh r).yft = 0 ∧ (calcSym f false ys ysh r).ytf = 0 := by
  cases f <;> simp [calcSym, BranchParam.zero]

theorem transformerZeroLow_open_from (t : Bool) (d : TransformerSeq) :
    (transformerZeroLow false t d).yff = 0 ∧ (transformerZeroLow false t d).yft = 0 ∧
      (transformerZeroLow false t d).ytf = 0 := by
  unfold transformerZeroLow transformerZero
  simp only [Bool.and_false, Bool.false_eq_true, if_false, and_false]
  split_ifs <;> simp [calcSym_open_from, BranchParam.zero]

theorem transformerZeroLow_open_to (f : Bool) (d : TransformerSeq) :
    (transformerZeroLow f false d).ytt = 0 ∧ (transformerZeroLow f false d).yft = 0 ∧
      (transformerZeroLow f false d).ytf = 0 := by
  unfold transformerZeroLow transformerZero
  simp only [Bool.and_false, Bool.false_eq_true, if_false, and_false]
  split_ifs <;> simp [calcSym_open_to, BranchParam.zero]

theorem transformBlock_null : transformBlock 0 0 0 = 0 := by
  unfold transformBlock
  have : (Matrix.diagonal ![(0 : ℂ), 0, 0] : M3) = 0 := by
    ext i j
    rw [Matrix.diagonal_apply]
    fin_cases i <;> fin_cases j <;> simp
  rw [this]
  simp

/-- C28: whatever its windings, a transformer draws no current through an open switch and is not influenced by the voltage
behind it. -/
theorem transformer3_open (s : Bool) (d : TransformerSeq) (uf ut jf jt : C3) :
    (Flows3 (transformerAsym false s d) uf ut jf jt →
      jf = 0 ∧ ∀ uf', Flows3 (transformerAsym false s d) uf' ut jf jt) ∧
    (Flows3 (transformerAsym s false d) uf ut jf jt →
      jt = 0 ∧ ∀ ut', Flows3 (transformerAsym s false d) uf ut' jf jt) := by
  unfold Flows3 transformerAsym
  constructor
  · obtain ⟨a1, a2, a3⟩ := transformerZeroLow_open_from s d
    obtain ⟨b1, b2, b3⟩ := calcSym_open_from s d.ySeries d.yShunt (d.k * phaseFactor d.clock)
    obtain ⟨c1, c2, c3⟩ := calcSym_open_from s d.ySeries d.yShunt (d.k * phaseFactor (-d.clock))
    simp only [a1, a2, a3, b1, b2, b3, c1, c2, c3, transformBlock_null, Matrix.zero_mulVec, add_zero, zero_add]
    exact fun h => ⟨h.1, fun _ => h⟩
  · obtain ⟨a1, a2, a3⟩ := transformerZeroLow_open_to s d
    obtain ⟨b1, b2, b3⟩ := calcSym_open_to s d.ySeries d.yShunt (d.k * phaseFactor d.clock)
    obtain ⟨c1, c2, c3⟩ := calcSym_open_to s d.ySeries d.yShunt (d.k * phaseFactor (-d.clock))
    simp only [a1, a2, a3, b1, b2, b3, c1, c2, c3, transformBlock_null, Matrix.zero_mulVec, add_zero, zero_add]
    exact fun h => ⟨h.2, fun _ => h⟩

/-! ### Zero sequence of transformers -/

/-- Specification: the zero sequence admittance behind the star point of a winding, seen from that side, when the windings are
not both grounded stars: a grounded star has the magnetising branch, and the series impedance if the other winding is a delta;
a grounded zigzag has a tenth of the series impedance; other windings have no connection to earth. -/
noncomputable def earthPath (d : TransformerSeq) (this other : Winding) : ℂ :=
  match this, other with
  | .wyeN, .delta => d.y0Shunt + d.ySeries
  | .wyeN, _ => d.y0Shunt
  | .zigzagN, _ => 10 * d.ySeries
  | _, _ => 0

/-- Specification: windings without a zero sequence path through the windings get a small susceptance to earth, so that the
network equations stay solvable. -/
def Blocked (this other : Winding) : Prop := this ≠ .zigzagN ∧ ¬ (this = .wyeN ∧ (other = .wyeN ∨ other = .delta))

/-- The current through an earthed winding: `k` is the turns ratio to the side on which `Y` is given, three times the
current flows through the earthing impedance. -/
def EarthedWinding (Y zg k u j : ℂ) : Prop := ∃ v, u = 3 * zg * j + k * v ∧ k * j = Y * v

theorem earthed_of_admittance (Y zg k u : ℂ) (hk : k ≠ 0) (hY : Y ≠ 0) (hne : k * k + 3 * zg * Y ≠ 0) :
    EarthedWinding Y zg k u ((1 / (1 / Y + 3 * zg / k / k)) / k / k * u) := by
  have h : 1 / Y + 3 * zg / k / k ≠ 0 := by
    intro hz
    apply hne
    field_simp at hz
    linear_combination hz
  refine ⟨(1 / (1 / Y + 3 * zg / k / k)) / k * u / Y, ?_, ?_⟩
  · obtain ⟨w, hw⟩ : ∃ w, w = k * k + 3 * zg * Y := ⟨_, rfl⟩
    have e : 1 / Y + 3 * zg / k / k = w / (Y * k * k) := by rw [hw]; field_simp
    rw [← hw] at hne
    rw [e]
    field_simp
    linear_combination u * hw
  · field_simp

theorem earthed_zero (zg k u : ℂ) (hk : k ≠ 0) : EarthedWinding 0 zg k u 0 := ⟨u / k, by field_simp; ring, by ring⟩

theorem transformerZero_yff (t : Bool) (d : TransformerSeq) (hw : ¬ (d.windingFrom = .wyeN ∧ d.windingTo = .wyeN))
    (hy : d.ySeries ≠ 0) :
    (earthPath d d.windingFrom d.windingTo ≠ 0 → (transformerZero true t d).yff =
      (1 / (1 / earthPath d d.windingFrom d.windingTo + 3 * d.zgFrom / d.k / d.k)) / d.k / d.k) ∧
    (earthPath d d.windingFrom d.windingTo = 0 → (transformerZero true t d).yff = 0) := by
  unfold transformerZero earthPath
  have h10 : (10 : ℂ) * d.ySeries ≠ 0 := mul_ne_zero (by norm_num) hy
  have e10 : (1 / d.ySeries) * (1 / 10) = 1 / (10 * d.ySeries) := by
    rw [div_mul_div_comm, one_mul, mul_comm]
  rw [if_neg hw, e10]
  rcases hwf : d.windingFrom with _ | _ | _ | _ | _ <;> rcases hwt : d.windingTo with _ | _ | _ | _ | _ <;>
    constructor <;> intro h <;> (try (simp [hwf, hwt] at hw; done)) <;> (try (simp at h; done)) <;>
    (try (simp [hy] at h; done)) <;> simp only [reduceCtorEq, if_true, if_false, and_false, and_true, true_and, false_and, ne_eq] <;>
    cases t <;> (try simp only [Bool.false_eq_true, if_true, if_false]) <;> (try split_ifs) <;>
    first | rfl | contradiction | skip

theorem transformerZero_ytt (f : Bool) (d : TransformerSeq) (hw : ¬ (d.windingFrom = .wyeN ∧ d.windingTo = .wyeN))
    (hy : d.ySeries ≠ 0) :
    (earthPath d d.windingTo d.windingFrom ≠ 0 → (transformerZero f true d).ytt =
      1 / (1 / earthPath d d.windingTo d.windingFrom + 3 * d.zgTo)) ∧
    (earthPath d d.windingTo d.windingFrom = 0 → (transformerZero f true d).ytt = 0) := by
  unfold transformerZero earthPath
  have h10 : (10 : ℂ) * d.ySeries ≠ 0 := mul_ne_zero (by norm_num) hy
  have e10 : (1 / d.ySeries) * (1 / 10) = 1 / (10 * d.ySeries) := by
    rw [div_mul_div_comm, one_mul, mul_comm]
  rw [if_neg hw, e10]
  rcases hwf : d.windingFrom with _ | _ | _ | _ | _ <;> rcases hwt : d.windingTo with _ | _ | _ | _ | _ <;>
    constructor <;> intro h <;> (try (simp [hwf, hwt] at hw; done)) <;> (try (simp at h; done)) <;>
    (try (simp [hy] at h; done)) <;> simp only [reduceCtorEq, if_true, if_false, and_false, and_true, true_and, false_and, ne_eq] <;>
    cases f <;> (try simp only [Bool.false_eq_true, if_true, if_false]) <;> (try split_ifs) <;>
    first | rfl | contradiction | skip

theorem transformerZero_off (f t : Bool) (d : TransformerSeq) (hw : ¬ (d.windingFrom = .wyeN ∧ d.windingTo = .wyeN)) :
    (transformerZero f t d).yft = 0 ∧ (transformerZero f t d).ytf = 0 := by
  unfold transformerZero
  rw [if_neg hw]
  simp only
  split_ifs <;> simp [BranchParam.zero]

theorem zeroSeqAvailable_iff (this other : Winding) : zeroSeqAvailable this other = false ↔ Blocked this other := by
  unfold Blocked
  cases this <;> cases other <;> simp [zeroSeqAvailable]

/-- The blocks with the small susceptance. -/
theorem transformerZeroLow_blocks (f t : Bool) (d : TransformerSeq) :
    (transformerZeroLow f t d).yft = (transformerZero f t d).yft ∧
    (transformerZeroLow f t d).ytf = (transformerZero f t d).ytf ∧
    (f = true → (transformerZeroLow f t d).yff = (transformerZero f t d).yff +
      (if zeroSeqAvailable d.windingFrom d.windingTo = false then Complex.I * d.lowSusceptance else 0)) ∧
    (t = true → (transformerZeroLow f t d).ytt = (transformerZero f t d).ytt +
      (if zeroSeqAvailable d.windingTo d.windingFrom = false then Complex.I * d.lowSusceptance else 0)) := by
  have hlow : (⟨0, d.lowSusceptance⟩ : ℂ) = Complex.I * d.lowSusceptance := by
    apply Complex.ext <;> simp
  unfold transformerZeroLow
  rw [hlow]
  generalize transformerZero f t d = p
  cases zeroSeqAvailable d.windingFrom d.windingTo <;> cases zeroSeqAvailable d.windingTo d.windingFrom <;>
    cases f <;> cases t <;> simp

/-- C28, zero sequence: unless both windings are grounded stars, each closed side of a transformer is an earthed winding on
its own (plus the small susceptance if the winding has no zero sequence path), without coupling to the other side. -/
theorem transformer_zero_sequence (f t : Bool) (d : TransformerSeq) (hw : ¬ (d.windingFrom = .wyeN ∧ d.windingTo = .wyeN))
    (hk : d.k ≠ 0) (hy : d.ySeries ≠ 0)
    (hf : (d.k : ℂ) * d.k + 3 * d.zgFrom * earthPath d d.windingFrom d.windingTo ≠ 0)
    (ht : 1 + 3 * d.zgTo * earthPath d d.windingTo d.windingFrom ≠ 0) (uf ut jf jt : ℂ)
    (h : Flows (transformerZeroLow f t d) uf ut jf jt) :
    (f = true → ∃ j j', jf = j + j' ∧ EarthedWinding (earthPath d d.windingFrom d.windingTo) d.zgFrom d.k uf j ∧
      (Blocked d.windingFrom d.windingTo → j' = Complex.I * d.lowSusceptance * uf) ∧
      (¬ Blocked d.windingFrom d.windingTo → j' = 0)) ∧
    (t = true → ∃ j j', jt = j + j' ∧ EarthedWinding (earthPath d d.windingTo d.windingFrom) d.zgTo 1 ut j ∧
      (Blocked d.windingTo d.windingFrom → j' = Complex.I * d.lowSusceptance * ut) ∧
      (¬ Blocked d.windingTo d.windingFrom → j' = 0)) := by
  have hk' : (d.k : ℂ) ≠ 0 := by exact_mod_cast hk
  obtain ⟨b1, b2, b3, b4⟩ := transformerZeroLow_blocks f t d
  obtain ⟨o1, o2⟩ := transformerZero_off f t d hw
  unfold Flows at h
  rw [b1, b2, o1, o2, zero_mul, add_zero, zero_mul, zero_add] at h
  constructor
  · intro hft
    have hb := b3 hft
    subst hft
    obtain ⟨y1, y2⟩ := transformerZero_yff t d hw hy
    refine ⟨_, _, by rw [h.1, hb, add_mul], ?_, ?_, ?_⟩
    · by_cases h0 : earthPath d d.windingFrom d.windingTo = 0
      · rw [y2 h0, h0, zero_mul]; exact earthed_zero _ _ _ hk'
      · rw [y1 h0]; exact earthed_of_admittance _ _ _ _ hk' h0 hf
    · intro hbl; rw [if_pos ((zeroSeqAvailable_iff _ _).mpr hbl)]
    · intro hbl; rw [if_neg (fun h => hbl ((zeroSeqAvailable_iff _ _).mp h)), zero_mul]
  · intro htt
    have hb := b4 htt
    subst htt
    obtain ⟨y1, y2⟩ := transformerZero_ytt f d hw hy
    refine ⟨_, _, by rw [h.2, hb, add_mul], ?_, ?_, ?_⟩
    · by_cases h0 : earthPath d d.windingTo d.windingFrom = 0
      · rw [y2 h0, h0, zero_mul]; exact earthed_zero _ _ _ one_ne_zero
      · rw [y1 h0]
        have := earthed_of_admittance _ d.zgTo 1 ut one_ne_zero h0 (by rw [one_mul]; exact ht)
        simpa using this
    · intro hbl; rw [if_pos ((zeroSeqAvailable_iff _ _).mpr hbl)]
    · intro hbl; rw [if_neg (fun h => hbl ((zeroSeqAvailable_iff _ _).mp h)), zero_mul]

/-- C28, zero sequence of a transformer with two grounded stars: the switched circuit with both earthing impedances (three
times, the one of the from side divided by the squared ratio) in series, and the ratio reversed for clocks 2, 6 and 10. -/
theorem transformer_zero_sequence_ynyn (f t : Bool) (d : TransformerSeq) (hf : d.windingFrom = .wyeN)
    (ht : d.windingTo = .wyeN) (z : ℂ) (hz : z = 1 / d.ySeries + 3 * (d.zgTo + d.zgFrom / d.k ^ 2)) (hz0 : z ≠ 0)
    (r : ℂ) (hr : r = if d.clock ∈ [2, 6, 10] then -d.k else d.k) (hk : d.k ≠ 0)
    (hsum : 1 / z + d.y0Shunt / 2 ≠ 0) (hsh : tolerance ≤ ‖d.y0Shunt‖ ∨ d.y0Shunt = 0) (uf ut jf jt : ℂ) :
    Flows (transformerZeroLow f t d) uf ut jf jt ↔ SwitchedBranch f t (1 / z) d.y0Shunt r uf ut jf jt := by
  have hp : transformerZeroLow f t d = calcSym f t (1 / z) d.y0Shunt r := by
    have h1 : phaseFactor 0 = 1 := by unfold phaseFactor; simp
    have h6 : phaseFactor 6 = -1 := by
      unfold phaseFactor
      have : (Complex.I * (((6 : Int) : ℂ) * (Real.pi / 6))) = Real.pi * Complex.I := by push_cast; ring
      rw [this, Complex.exp_pi_mul_I]
    have hzz : 1 / d.ySeries + 3 * (d.zgTo + d.zgFrom / d.k / d.k) = z := by rw [hz, div_div, sq]
    have hrr : (d.k : ℂ) * phaseFactor (if d.clock = 2 ∨ d.clock = 6 ∨ d.clock = 10 then 6 else 0) = r := by
      rw [hr]
      by_cases hc : d.clock = 2 ∨ d.clock = 6 ∨ d.clock = 10
      · rw [if_pos hc, if_pos (by simpa using hc), h6]; push_cast; ring
      · rw [if_neg hc, if_neg (by simpa using hc), h1]; ring
    unfold transformerZeroLow transformerZero
    simp only [hf, ht, zeroSeqAvailable, and_self, if_true, hzz, hrr]
    simp
  rw [hp]
  apply branch_exact _ _ _ _ _ _ _ _ _ _ (one_div_ne_zero hz0) hsum hsh
  rw [hr]
  have : (d.k : ℂ) ≠ 0 := by exact_mod_cast hk
  split
  · push_cast; exact neg_ne_zero.mpr this
  · exact this

/-- Non-vacuity: a YNd transformer, whose grounded side draws 1 / (1 + 3 / 3) of the voltage. -/
example : Flows (transformerZeroLow true true ⟨1, 0, 0, 1, 1, .wyeN, .delta, 1 / 3, 0, 0⟩) 2 5 1 0 := by
  unfold Flows
  simp [transformerZeroLow, transformerZero, zeroSeqAvailable, BranchParam.zero]
  norm_num
  rfl

/-! ## C28: lines with unbalanced impedances -/

theorem half_two (M : M3) : (2 : ℂ) • ((1 / 2 : ℂ) • M) = M := by rw [smul_smul]; norm_num

/-- The parallel connection of series and shunt admittance. -/
theorem asym_reduction (ys ysh : M3) (h1 : IsUnit ys.det) (h2 : IsUnit ysh.det)
    (h3 : IsUnit (ys + (1 / 2 : ℂ) • ysh).det) :
    (ys⁻¹ + (2 : ℂ) • ysh⁻¹)⁻¹ = ((1 / 2 : ℂ) • ysh) * (ys + (1 / 2 : ℂ) • ysh)⁻¹ * ys := by
  apply Matrix.inv_eq_right_inv
  have e : ys⁻¹ + (2 : ℂ) • ysh⁻¹ = ys⁻¹ * (ys + (1 / 2 : ℂ) • ysh) * ((2 : ℂ) • ysh⁻¹) := by
    rw [mul_add, add_mul, Matrix.nonsing_inv_mul _ h1, one_mul, add_comm]
    congr 1
    rw [Matrix.mul_smul, Matrix.mul_smul, Matrix.smul_mul, smul_smul]
    rw [mul_assoc, Matrix.mul_nonsing_inv _ h2, mul_one]
    norm_num
  rw [e]
  have e2 : ((2 : ℂ) • ysh⁻¹) * ((1 / 2 : ℂ) • ysh) = 1 := by
    rw [Matrix.mul_smul, Matrix.smul_mul, smul_smul, Matrix.nonsing_inv_mul _ h2]
    norm_num
  calc ys⁻¹ * (ys + (1 / 2 : ℂ) • ysh) * ((2 : ℂ) • ysh⁻¹) * ((1 / 2 : ℂ) • ysh * (ys + (1 / 2 : ℂ) • ysh)⁻¹ * ys)
      = ys⁻¹ * (ys + (1 / 2 : ℂ) • ysh) * (((2 : ℂ) • ysh⁻¹) * ((1 / 2 : ℂ) • ysh)) * (ys + (1 / 2 : ℂ) • ysh)⁻¹ * ys := by
        simp only [mul_assoc]
    _ = ys⁻¹ * ((ys + (1 / 2 : ℂ) • ysh) * (ys + (1 / 2 : ℂ) • ysh)⁻¹) * ys := by
        rw [e2, mul_one]; simp only [mul_assoc]
    _ = 1 := by rw [Matrix.mul_nonsing_inv _ h3, mul_one, Matrix.nonsing_inv_mul _ h1]

/-- The branch seen from one closed end when the other end is open. -/
theorem asym_open_end (ys ysh : M3) (h1 : IsUnit ys.det) (h2 : IsUnit ysh.det)
    (h3 : IsUnit (ys + (1 / 2 : ℂ) • ysh).det) (u j : C3) :
    j = ((1 / 2 : ℂ) • ysh + (ys⁻¹ + (2 : ℂ) • ysh⁻¹)⁻¹).mulVec u ↔
      ∃ e : C3, j = (1 / 2 : ℂ) • ysh.mulVec u + ys.mulVec (u - e) ∧
        0 = (1 / 2 : ℂ) • ysh.mulVec e + ys.mulVec (e - u) := by
  rw [asym_reduction ys ysh h1 h2 h3]
  have hS := Matrix.nonsing_inv_mul _ h3
  have hS' := Matrix.mul_nonsing_inv _ h3
  set S := ys + (1 / 2 : ℂ) • ysh with hSdef
  have key : ∀ e : C3, (0 = (1 / 2 : ℂ) • ysh.mulVec e + ys.mulVec (e - u)) ↔ e = (S⁻¹ * ys).mulVec u := by
    intro e
    have hs : (1 / 2 : ℂ) • ysh.mulVec e + ys.mulVec (e - u) = S.mulVec e - ys.mulVec u := by
      rw [hSdef, Matrix.add_mulVec, Matrix.smul_mulVec, Matrix.mulVec_sub]
      abel
    rw [hs]
    constructor
    · intro h
      have h' : S.mulVec e = ys.mulVec u := (sub_eq_zero.mp h.symm)
      rw [← Matrix.mulVec_mulVec, ← h', Matrix.mulVec_mulVec, hS, Matrix.one_mulVec]
    · rintro rfl
      rw [Matrix.mulVec_mulVec, ← mul_assoc, hS', one_mul, sub_self]
  have hval : (1 / 2 : ℂ) • ysh.mulVec u + ys.mulVec (u - (S⁻¹ * ys).mulVec u) =
      ((1 / 2 : ℂ) • ysh + (1 / 2 : ℂ) • ysh * S⁻¹ * ys).mulVec u := by
    have hy : (1 / 2 : ℂ) • ysh = S - ys := by rw [hSdef]; abel
    rw [Matrix.add_mulVec, Matrix.smul_mulVec, Matrix.mulVec_sub, Matrix.mulVec_mulVec]
    congr 1
    rw [hy, sub_mul, sub_mul, hS', one_mul, Matrix.sub_mulVec, mul_assoc]
  constructor
  · intro h
    exact ⟨_, by rw [hval]; exact h, (key _).mpr rfl⟩
  · rintro ⟨e, h4, h5⟩
    rw [(key e).mp h5, hval] at h4
    exact h4

/-- C28 for a line with unbalanced impedances, when no entry of its shunt matrix is below the tolerance; full statement: for
every shunt matrix with the stated determinants. -/
theorem asymLine_exact_partial (f t : Bool) (ys ysh : M3) (uf ut jf jt : C3) (h1 : IsUnit ys.det) (h2 : IsUnit ysh.det)
    (h3 : IsUnit (ys + (1 / 2 : ℂ) • ysh).det) (h4 : ∀ i j, tolerance ≤ ‖ysh i j‖) :
    Flows3 (asymLineAsym f t ys ysh) uf ut jf jt ↔ SwitchedBranch3 f t ys ysh uf ut jf jt := by
  have key := asym_open_end ys ysh h1 h2 h3
  unfold SwitchedBranch3 Flows3
  cases f <;> cases t
  · simp only [asymLineAsym, BranchParam.zero, Bool.and_self, Bool.not_false, if_true, Bool.or_self, Bool.false_eq_true,
      if_false, Matrix.zero_mulVec, add_zero]
    constructor
    · rintro ⟨h5, h6⟩
      exact ⟨0, 0, by simp, by simp, fun _ => h5, fun _ => h6, by simp [h5], by simp [h6]⟩
    · rintro ⟨_, _, -, -, h5, h6, -⟩
      exact ⟨h5 trivial, h6 trivial⟩
  · simp only [asymLineAsym, Bool.false_and, Bool.not_false, if_true, Bool.false_or, Bool.false_eq_true, if_false,
      if_pos h4, Matrix.zero_mulVec, add_zero, zero_add]
    rw [key]
    constructor
    · rintro ⟨h5, e, h6, h7⟩
      exact ⟨e, ut, by simp, by simp, fun _ => h5, by simp, by rw [h5]; exact h7, h6⟩
    · rintro ⟨ef, et, -, h5, h6, -, h7, h8⟩
      have h5 := h5 trivial
      have h6 := h6 trivial
      subst h5
      refine ⟨h6, ef, h8, ?_⟩
      rw [← h7, h6]
  · simp only [asymLineAsym, Bool.and_false, Bool.not_false, if_true, Bool.or_false, Bool.false_eq_true, if_false,
      if_pos h4, Matrix.zero_mulVec, add_zero, zero_add]
    rw [key]
    constructor
    · rintro ⟨⟨e, h6, h7⟩, h5⟩
      exact ⟨uf, e, by simp, by simp, by simp, fun _ => h5, h6, by rw [h5]; exact h7⟩
    · rintro ⟨ef, et, h5, -, -, h6, h7, h8⟩
      have h5 := h5 trivial
      have h6 := h6 trivial
      subst h5
      refine ⟨⟨et, h7, ?_⟩, h6⟩
      rw [← h8, h6]
  · simp only [asymLineAsym, Bool.and_self, Bool.not_true, Bool.false_eq_true, if_false]
    constructor
    · rintro ⟨h5, h6⟩
      refine ⟨uf, ut, by simp, by simp, by simp, by simp, ?_, ?_⟩
      · rw [h5, Matrix.add_mulVec, Matrix.smul_mulVec, Matrix.mulVec_sub, Matrix.neg_mulVec]; abel
      · rw [h6, Matrix.add_mulVec, Matrix.smul_mulVec, Matrix.mulVec_sub, Matrix.neg_mulVec]; abel
    · rintro ⟨ef, et, h5, h6, -, -, h7, h8⟩
      have h5 := h5 trivial
      have h6 := h6 trivial
      subst h5 h6
      constructor
      · rw [h7, Matrix.add_mulVec, Matrix.smul_mulVec, Matrix.mulVec_sub, Matrix.neg_mulVec]; abel
      · rw [h8, Matrix.add_mulVec, Matrix.smul_mulVec, Matrix.mulVec_sub, Matrix.neg_mulVec]; abel

/-- The full statement fails: a line without capacitance between its phases (a diagonal shunt matrix) that is open at one
side loses its whole charging current, however large. -/
theorem asymLine_diagonal_shunt_lost :
    ∃ (ys ysh : M3) (uf jf : C3), IsUnit ys.det ∧ IsUnit ysh.det ∧ IsUnit (ys + (1 / 2 : ℂ) • ysh).det ∧
      SwitchedBranch3 true false ys ysh uf 0 jf 0 ∧ ¬ Flows3 (asymLineAsym true false ys ysh) uf 0 jf 0 := by
  have e : (1 : M3) + (1 / 2 : ℂ) • ((2 : ℂ) • (1 : M3)) = (2 : ℂ) • (1 : M3) := by
    rw [smul_smul]; norm_num [two_smul]
  have hd : IsUnit ((2 : ℂ) • (1 : M3)).det := by
    rw [Matrix.det_smul]; norm_num
  refine ⟨1, (2 : ℂ) • 1, fun _ => 2, fun _ => 3, by simp, hd, by rw [e]; exact hd, ?_, ?_⟩
  · refine ⟨fun _ => 2, fun _ => 1, by simp, by simp, by simp, by simp, ?_, ?_⟩
    · rw [Matrix.smul_mulVec, Matrix.one_mulVec, Matrix.one_mulVec]
      funext i; simp; norm_num
    · rw [Matrix.smul_mulVec, Matrix.one_mulVec, Matrix.one_mulVec]
      funext i; simp; norm_num
  · intro h
    have hn : ¬ ∀ i j, tolerance ≤ ‖((2 : ℂ) • (1 : M3)) i j‖ := by
      intro h
      have := h 0 1
      simp [tolerance] at this
      norm_num at this
    unfold Flows3 at h
    simp only [asymLineAsym, Bool.and_false, Bool.not_false, if_true, Bool.or_false, if_neg hn, Matrix.zero_mulVec,
      add_zero] at h
    have := congrFun h.1 0
    norm_num at this

/-- Non-vacuity of the three-phase statements: a line with mutual capacitances. -/
example : ∃ ys ysh : M3, IsUnit ys.det ∧ IsUnit ysh.det ∧ IsUnit (ys + (1 / 2 : ℂ) • ysh).det ∧
    ∀ i j, tolerance ≤ ‖ysh i j‖ := by
  refine ⟨!![1, 0, 0; 0, 1, 0; 0, 0, 1], !![4, 1, 1; 1, 4, 1; 1, 1, 4], ?_, ?_, ?_, ?_⟩
  · rw [Matrix.det_fin_three]; simp
  · rw [Matrix.det_fin_three]; simp; norm_num
  · rw [Matrix.det_fin_three]; simp; norm_num
  · intro i j
    fin_cases i <;> fin_cases j <;> simp [tolerance] <;> norm_num

end PGM.Component
