import Verif.Newton.Model
import Mathlib.Analysis.Calculus.Deriv.Basic

/-!
# What a Newton-Raphson iteration is meant to do (C54)

The specification knows the equations of the grid, not the Jacobian.
-/

namespace PGM.NewtonPf

open PGM.YBus PGM.PowerFlow PGM.Component

variable {s : Symm}

/-- The power that a load or generator gives at voltage magnitudes `v`: the power of its type, or, when its reactive power was fixed at a limit,
its active power and that reactive power. -/
noncomputable def given (inp : PfInput s) (type : Nat → LoadType) (fixed : Nat → Option (RV s ℝ)) (v : RV s ℝ) (k : Nat) : CV s := fun p =>
  match fixed k with
  | some q => ((inp.sInj k p).re : ℂ) + (q p : ℂ) * Complex.I
  | none => inp.sInj k p * (factor (type k) (v p) : ℂ)

/-- The power that the network takes from a bus. -/
noncomputable def taken (N : PfNet s) (u : Nat → CV s) (b : Nat) : CV s :=
  u b * star (∑ c ∈ Finset.range N.T.nBus, dot s (nodal N.T N.y.param b c) (u c))

/-- The power mismatch at a bus, for unknowns `x`: what loads, generators and sources give, minus what the network takes. -/
noncomputable def mismatch (N : PfNet s) (inp : PfInput s) (type : Nat → LoadType) (fixed : Nat → Option (RV s ℝ)) (x : Nat → Polar s) (b : Nat) :
    CV s :=
  atBus N.loadBus (given inp type fixed (x b).v) b + atBus N.sourceBus (fun k => phasor (x b) * star (physicalSource N inp (phasor (x b)) k)) b -
    taken N (fun c => phasor (x c)) b

/-- The unknowns after a fraction `t` of a step `d`: angles change by `d.theta`, magnitudes by the fraction `d.v`. -/
def along (x d : Nat → Polar s) (t : ℝ) (b : Nat) : Polar s :=
  ⟨fun p => (x b).theta p + t * (d b).theta p, fun p => (x b).v p + t * ((x b).v p * (d b).v p)⟩

/-- A Newton step: along `d` the power mismatch of every bus decreases at the rate that would remove it. At a voltage-controlled bus this is said of
the active power, and the voltage magnitude is kept instead. -/
def NewtonStep (N : PfNet s) (inp : PfInput s) (type : Nat → LoadType) (fixed : Nat → Option (RV s ℝ)) (pv : Nat → Prop) (x d : Nat → Polar s) :
    Prop :=
  ∀ b, b < N.T.nBus → ∀ p,
    HasDerivAt (fun t => (mismatch N inp type fixed (along x d t) b p).re) (-(mismatch N inp type fixed x b p).re) 0 ∧
    (¬ pv b → HasDerivAt (fun t => (mismatch N inp type fixed (along x d t) b p).im) (-(mismatch N inp type fixed x b p).im) 0) ∧
    (pv b → (x b).v p * (d b).v p = 0)

/-- The linear equations of the start: the sources feed the network and the loads, all of constant impedance; of a load or generator with an active
voltage regulator only the active power counts. -/
def StartEquations (N : PfNet s) (inp : PfInput s) (regulated : Nat → Prop) (u : Nat → CV s) : Prop :=
  ∀ b, b < N.T.nBus → ∀ z : Nat → CV s, (∀ k p, (regulated k → z k p = ((inp.sInj k p).re : ℂ)) ∧ (¬ regulated k → z k p = inp.sInj k p)) →
    atBus N.sourceBus (physicalSource N inp (u b)) b + atBus N.loadBus (fun k => star (z k) * u b) b =
      ∑ c ∈ Finset.range N.T.nBus, dot s (nodal N.T N.y.param b c) (u c)

/-- The sum of the absolute values of all powers at a bus: of the network, of the loads and generators and of the sources. -/
noncomputable def gross (N : PfNet s) (inp : PfInput s) (type : Nat → LoadType) (fixed : Nat → Option (RV s ℝ)) (x : Nat → Polar s) (b : Nat)
    (p : Fin s.phases) : ℝ :=
  (∑ c ∈ Finset.range N.T.nBus, ∑ q, ‖phasor (x b) p‖ * ‖nodal N.T N.y.param b c p q‖ * ‖phasor (x c) q‖) +
    (N.loadBus.zipIdx.map fun k => if k.1 = b then ‖given inp type fixed (x b).v k.2 p‖ else 0).sum +
    (N.sourceBus.zipIdx.map fun k => if k.1 = b then ∑ q, ‖phasor (x b) p‖ * ‖yRef s (N.y1 k.2) (N.y0 k.2) p q‖ *
      (‖spread s (inp.source k.2) q‖ + ‖phasor (x b) q‖) else 0).sum

end PGM.NewtonPf
