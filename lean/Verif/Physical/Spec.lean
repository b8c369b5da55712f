import Verif.Component.ThreeWinding

/-!
# Branches and shunts in physical units: specification (property C59)

Phase-to-neutral voltages are in volt, currents in ampere, impedances in ohm, admittances in siemens. The circuits are those of
`SwitchedBranch` (`Verif.Component.Branch`): an ideal transformer, a series admittance, and half of the shunt admittance at each
end, between two switches. The power base of the calculations is 1 MVA.
-/

namespace PGM.Physical

open PGM.Component

/-- The phase-to-neutral voltage of a node with rated (line-to-line) voltage `u` whose voltage is `v` per unit. -/
noncomputable def volts (u : ℝ) (v : ℂ) : ℂ := ((u / √3 : ℝ) : ℂ) * v

/-- The current that is `j` per unit at a node with rated voltage `u`. -/
noncomputable def amps (u : ℝ) (j : ℂ) : ℂ := ((10 ^ 6 / (√3 * u) : ℝ) : ℂ) * j

/-- The part of a three-phase quantity that is common to all phases. -/
noncomputable def common (v : C3) : ℂ := (v 0 + v 1 + v 2) / 3

/-- What a branch that is open at exactly one side has to satisfy: the circuit determines the voltage of the open end, and the shunt
admittance is zero or at least 1e-8 per unit. No condition for other branches. -/
def OpenEnd (f t : Bool) (u : ℝ) (ys ysh : ℂ) : Prop :=
  f ≠ t → ys ≠ 0 ∧ ys + ysh / 2 ≠ 0 ∧ (ysh = 0 ∨ 10 ^ (-8 : ℤ) * (10 ^ 6 / u ^ 2) ≤ ‖ysh‖)

/-- Three phases of a transposed line: the common part of voltages and currents obeys the circuit with the zero sequence data and the
rest, phase by phase, the circuit with the positive sequence data. -/
def Transposed (f t : Bool) (ys1 ysh1 ys0 ysh0 : ℂ) (vf vt jf jt : C3) : Prop :=
  SwitchedBranch f t ys0 ysh0 1 (common vf) (common vt) (common jf) (common jt) ∧
  ∀ p, SwitchedBranch f t ys1 ysh1 1 (vf p - common vf) (vt p - common vt) (jf p - common jf) (jt p - common jt)

/-- Conductors with impedance matrix `z` between the voltages `vf` and `vt`, with capacitances `c` to earth and between them (half of
them at each end) at `freq` hertz. -/
def Conductors (z c : M3) (freq : ℝ) (vf vt jf jt : C3) : Prop :=
  ∃ j : C3, vf - vt = z.mulVec j ∧
    jf = j + (1 / 2 : ℂ) • ((2 * Real.pi * freq * Complex.I : ℂ) • c.mulVec vf) ∧
    jt = -j + (1 / 2 : ℂ) • ((2 * Real.pi * freq * Complex.I : ℂ) • c.mulVec vt)

/-- Three conductors and a neutral that is earthed at both ends: there is a current `jn` in the neutral, and no voltage along it.
`z` is the impedance matrix of the phases, `zn` the impedances between the phases and the neutral, `znn` that of the neutral. -/
def ConductorsNeutral (z : M3) (zn : C3) (znn : ℂ) (c : M3) (freq : ℝ) (vf vt jf jt : C3) : Prop :=
  ∃ (j : C3) (jn : ℂ), (∀ p, vf p - vt p = z.mulVec j p + zn p * jn) ∧ 0 = (zn 0 * j 0 + zn 1 * j 1 + zn 2 * j 2) + znn * jn ∧
    jf = j + (1 / 2 : ℂ) • ((2 * Real.pi * freq * Complex.I : ℂ) • c.mulVec vf) ∧
    jt = -j + (1 / 2 : ℂ) • ((2 * Real.pi * freq * Complex.I : ℂ) • c.mulVec vt)

/-- A line of which an end may be open: through an open end no current flows. -/
def Ends (f t : Bool) (line : C3 → C3 → C3 → C3 → Prop) (vf vt jf jt : C3) : Prop :=
  ∃ ef et : C3, (f = true → ef = vf) ∧ (t = true → et = vt) ∧ (f = false → jf = 0) ∧ (t = false → jt = 0) ∧ line ef et jf jt

/-- The rated current at a side with rated voltage `u`. -/
noncomputable def ratedCurrent (sn u : ℝ) : ℝ := sn / (√3 * u)

/-- The short-circuit test: at rated current the three phases lose `pk` watt, and the voltage is the fraction `uk` of the rated
voltage. A negative `uk` means a negative reactance. -/
def ShortCircuitTest (z : ℂ) (u sn uk pk : ℝ) : Prop :=
  3 * ratedCurrent sn u ^ 2 * z.re = pk ∧ ratedCurrent sn u * ‖z‖ = |uk| * (u / √3) ∧ 0 ≤ uk * z.im

/-- The no-load test: at rated voltage the three phases lose `p0` watt, and the current is the fraction `i0` of the rated current; it
is inductive. -/
def NoLoadTest (y : ℂ) (u sn i0 p0 : ℝ) : Prop :=
  3 * (u / √3) ^ 2 * y.re = p0 ∧ ‖y‖ * (u / √3) = i0 * ratedCurrent sn u ∧ y.im ≤ 0

/-- The rated voltage `u'` at a tap position: one `tap_size` more for each position in the direction of `tap_max`. -/
def TapVoltage (u size : ℝ) (pos nom tmin tmax : Int) (u' : ℝ) : Prop :=
  (tmin < tmax → u' = u + (pos - nom) * size) ∧ (tmax ≤ tmin → u' = u + (nom - pos) * size)

/-- The value `x'` at a tap position of a quantity with the values `x`, `xmin`, `xmax` at the nominal tap and the ends of the range:
straight lines between the nominal tap and the ends. -/
def TapValue (x xmin xmax : ℝ) (pos nom tmin tmax : Int) (x' : ℝ) : Prop :=
  (Between (nom : ℝ) tmax pos → (tmax = nom → x' = x) ∧ (tmax ≠ nom → OnLine (nom : ℝ) x tmax xmax pos x')) ∧
  (¬ Between (nom : ℝ) tmax pos → (tmin = nom → x' = x) ∧ (tmin ≠ nom → OnLine (nom : ℝ) x tmin xmin pos x'))

/-- The admittance that a positive sequence voltage meets: the positive sequence part of the currents that it drives. -/
noncomputable def positiveAdmittance (y : M3) : ℂ :=
  (y.mulVec posSeq 0 + star (posSeq 1) * y.mulVec posSeq 1 + star (posSeq 2) * y.mulVec posSeq 2) / 3

/-- The value that a list of updates leaves behind: the last one that is given, the initial one if there is none. -/
def latest (initial : Option ℝ) (updates : List (Option ℝ)) : Option ℝ := (updates.filterMap id).getLast?.or initial

end PGM.Physical
