import Verif.TapVoltage.Model

/-!
# Specification of the controlled voltage (property C61)

`/repo/docs/user_manual/components.md` lines 1201-1241: the controlled voltage is the voltage at the end of a virtual impedance through which the current of the transformer
leaves the node, and the regulator keeps it in the band around the set point. The current of the transformer is counted from the node into the transformer, so its
voltage drop is added.
-/

namespace PGM.TapVoltage

open PGM.Container PGM.Input PGM.Update PGM.Topology PGM.PowerFlow PGM.Output PGM.TapOpt

variable {K : Type} {σ : Symm}

/-- The voltage between line and ground, in volt: symmetric calculations report the voltage between lines. -/
noncomputable def phaseVoltage (σ : Symm) (u : RV σ ℝ) (j : Fin σ.phases) : ℝ :=
  match σ, u, j with
  | .sym, u, j => u j / √3
  | .asym, u, j => u j

/-- The complex power of one phase, in watt and var: symmetric calculations report the total. -/
noncomputable def phasePower (σ : Symm) (p q : RV σ ℝ) (j : Fin σ.phases) : ℂ :=
  match σ, p, q, j with
  | .sym, p, q, j => (p j + q j * Complex.I) / 3
  | .asym, p, q, j => p j + q j * Complex.I

/-- `v` is the voltage between lines, in volt, at the end of a virtual impedance of `r` and `x` ohm, where `u` is reported for the node and `p`, `q` for the side of the transformer
at the node: `I j` is the current from the node into the transformer if the voltage of the node is taken as the reference of the angles. For asymmetric calculations it is the mean of the phases. -/
def IsControlVoltage (σ : Symm) (u p q : RV σ ℝ) (r x v : ℝ) : Prop :=
  ∃ I : Fin σ.phases → ℂ, (∀ j, (phaseVoltage σ u j : ℂ) * star (I j) = phasePower σ p q j) ∧
    v = √3 * ((∑ j, ‖(phaseVoltage σ u j : ℂ) + (r + x * Complex.I) * I j‖) / σ.phases)

/-- What the outcome of a comparison says about a voltage and a band. -/
def Verdict (low high v : ℝ) : Cmp → Prop
  | .lt => v < low
  | .gt => high < v
  | .eq => low ≤ v ∧ v ≤ high
  | .unordered => False

/-- The set point that a history leaves behind: the last one that was given. -/
def setPoint (d : RegInput) (us : List RegUpdate) : ℝ := (us.filterMap (·.uSet)).getLast?.getD d.uSet

/-- The width of the band that a history leaves behind. -/
def bandWidth (d : RegInput) (us : List RegUpdate) : ℝ := (us.filterMap (·.uBand)).getLast?.getD d.uBand

/-- The resistance of the compensation that a history leaves behind; zero if none was given. -/
def dropR (d : RegInput) (us : List RegUpdate) : ℝ := ((us.filterMap (·.r)).getLast?.or d.r).getD 0

/-- The reactance of the compensation that a history leaves behind. -/
def dropX (d : RegInput) (us : List RegUpdate) : ℝ := ((us.filterMap (·.x)).getLast?.or d.x).getD 0

/-- In the result of the solver, the power at a side of a branch is that of the voltage `u` at the node and the current. -/
def IsPower (u s i : CV σ) : Prop := ∀ j, s j = u j * star (i j)

end PGM.TapVoltage
