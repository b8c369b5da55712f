import Verif.PowerFlow.Regulator
import Verif.Topology.Sensors
import Mathlib.Analysis.Calculus.Deriv.Basic
import Mathlib.Analysis.SpecialFunctions.Trigonometric.Deriv
import Mathlib.Analysis.SpecialFunctions.Complex.Circle

/-!
# Specification of the propagation of measurement errors (property C60)

The documentation of the state estimation, `/repo/docs/algorithms/se-algorithms.md` lines 112-150: a quantity that is computed from
measured values gets the variance that a Taylor expansion gives. The comments of the code,
`P/common/statistics.hpp` lines 130-150, add the terms of second order.
-/

namespace PGM.Sensor

/-- The partial derivative of `f` in direction `j`. -/
noncomputable def partialAt {ι : Type} [DecidableEq ι] (j : ι) (f : (ι → ℝ) → ℝ) (x : ι → ℝ) : ℝ :=
  deriv (fun t => f (Function.update x j t)) (x j)

/-- The variance of `f` at the measured values `x` with independent errors of variances `v`: terms of first and second order. -/
noncomputable def propagated {ι : Type} [Fintype ι] [DecidableEq ι] (f : (ι → ℝ) → ℝ) (x v : ι → ℝ) : ℝ :=
  ∑ j, v j * partialAt j f x ^ 2 + 1 / 2 * ∑ j, ∑ k, v j * partialAt j (partialAt k f) x ^ 2 * v k

/-- The value that a history leaves behind: the last one that is given, the initial one if there is none. -/
def latest {α : Type} (initial : Option α) (updates : List (Option α)) : Option α := (updates.filterMap id).getLast?.or initial

open PGM.PowerFlow PGM.Topology

instance (s : Symm) : NeZero s.phases := ⟨by cases s <;> simp [Symm.phases]⟩

/-- The reference direction of a measured power: loads and shunts measure what they take from the node; all others what they give to the
node, or what flows from the node into the branch. -/
def reference : Terminal → ℝ
  | .load => -1
  | .shunt => -1
  | _ => 1

/-- The power that a calculation of symmetry `σ` uses for the values `x` of a sensor of symmetry `τ`, in watt: the total, or that of each
phase. -/
noncomputable def usedPower (τ σ : Symm) (x : Fin τ.phases → ℝ) (j : Fin σ.phases) : ℝ :=
  match τ, σ with
  | .sym, .sym => x 0
  | .sym, .asym => x 0 / 3
  | .asym, .asym => x j
  | .asym, .sym => x 0 + x 1 + x 2

/-- The magnitude of voltage that a calculation uses, in volt: between lines, or between each line and ground. -/
noncomputable def usedMagnitude (τ σ : Symm) (x : Fin τ.phases → ℝ) (j : Fin σ.phases) : ℝ :=
  match τ, σ with
  | .sym, .sym => x 0
  | .sym, .asym => x 0 / √3
  | .asym, .asym => x j
  | .asym, .sym => √3 * ((x 0 + x 1 + x 2) / 3)

/-- Phase `p` of a positive sequence lags by `p` thirds of a turn. -/
noncomputable def lag (p : Fin 3) : ℝ := 2 * Real.pi / 3 * (p : ℕ)

/-- The voltage phasor that a calculation uses, in volt: that of the positive sequence between lines, or between each line and ground. -/
noncomputable def usedPhasor (τ σ : Symm) (u θ : Fin τ.phases → ℝ) (j : Fin σ.phases) : ℂ :=
  match τ, σ with
  | .sym, .sym => u 0 * Complex.exp (θ 0 * Complex.I)
  | .sym, .asym => (u 0 / √3 : ℝ) * Complex.exp ((θ 0 - lag j : ℝ) * Complex.I)
  | .asym, .asym => u j * Complex.exp (θ j * Complex.I)
  | .asym, .sym => (√3 : ℝ) * ((u 0 * Complex.exp ((θ 0 + lag 0 : ℝ) * Complex.I) + u 1 * Complex.exp ((θ 1 + lag 1 : ℝ) * Complex.I) +
      u 2 * Complex.exp ((θ 2 + lag 2 : ℝ) * Complex.I)) / 3)

/-- The current phasor that a calculation uses, in ampere, as a function of all magnitudes (`false`) and angles (`true`). -/
noncomputable def usedCurrent (τ σ : Symm) (x : Fin τ.phases × Bool → ℝ) (j : Fin σ.phases) : ℂ :=
  match τ, σ with
  | .sym, .sym => x (0, false) * Complex.exp (x (0, true) * Complex.I)
  | .sym, .asym => x (0, false) * Complex.exp ((x (0, true) - lag j : ℝ) * Complex.I)
  | .asym, .asym => x (j, false) * Complex.exp (x (j, true) * Complex.I)
  | .asym, .sym => (x (0, false) * Complex.exp ((x (0, true) + lag 0 : ℝ) * Complex.I) +
      x (1, false) * Complex.exp ((x (1, true) + lag 1 : ℝ) * Complex.I) +
      x (2, false) * Complex.exp ((x (2, true) + lag 2 : ℝ) * Complex.I)) / 3

/-- A standard deviation: infinite if the measurement shall not be used. -/
inductive Dev where
  | inf
  | fin (x : ℝ)

/-- The unit of power in a calculation, in watt: 1 MW in total, a third of it in each phase. -/
noncomputable def unitPower : Symm → ℝ
  | .sym => 1000000
  | .asym => 1000000 / 3

/-- The unit of voltage at a node, in volt: the rated voltage between lines, or between line and ground. -/
noncomputable def unitVoltage (uRated : ℝ) : Symm → ℝ
  | .sym => uRated
  | .asym => uRated / √3

/-- The unit of current at a node, in ampere: the line current that belongs to 1 MVA. -/
noncomputable def unitCurrent (uRated : ℝ) : ℝ := 1000000 / (√3 * uRated)

end PGM.Sensor
