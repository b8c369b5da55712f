import Verif.NewtonSe.Model
import Mathlib.Analysis.Calculus.Deriv.Basic

/-!
# What a Gauss-Newton step is

The specification of C55. It uses the measurements, the admittances of the branches and the shunts and the nodal admittance matrix (C14), and nothing
of how the solver arranges its equations. The unknowns are the angle and the magnitude of the voltage of every phase of every bus.
-/

namespace PGM.NewtonSe

open PGM.YBus PGM.PowerFlow PGM.StateEst
open PGM.NewtonPf (Polar)

variable {s : Symm}

/-- A measurement of a real quantity that depends on the unknowns: what the unknowns predict, what was measured, and the variance. -/
structure Reading (s : Symm) where
  predict : (Nat → Polar s) → ℝ
  target : ℝ
  var : ℝ

/-- The unknowns on the line from `x` in direction `d`. -/
def move (x d : Nat → Polar s) (t : ℝ) (b : Nat) : Polar s :=
  ⟨fun p => (x b).theta p + t * (d b).theta p, fun p => (x b).v p + t * (d b).v p⟩

/-- The directional derivative of the prediction. -/
noncomputable def Reading.slope (R : Reading s) (x d : Nat → Polar s) : ℝ := deriv (fun t => R.predict (move x d t)) 0

/-- The deviation that the linearisation at `x` predicts for the change `d`. -/
noncomputable def Reading.misfit (R : Reading s) (x d : Nat → Polar s) : ℝ := R.target - R.predict x - R.slope x d

/-- The sum of the weighted squares of these. A reading with variance zero is not part of it, but a constraint. -/
noncomputable def linearCost (l : List (Reading s)) (x d : Nat → Polar s) : ℝ :=
  (l.map fun R => if R.var = 0 then 0 else R.misfit x d ^ 2 / R.var).sum

/-- The change meets the linearised readings with variance zero. -/
def Meets (l : List (Reading s)) (x d : Nat → Polar s) : Prop := ∀ R ∈ l, R.var = 0 → R.misfit x d = 0

/-- The change `d` is the Gauss-Newton step from `x`: the least squares solution of the readings, linearised at `x`; and the only one for the
buses below `n`. -/
def IsGaussNewtonStep (n : Nat) (l : List (Reading s)) (x d : Nat → Polar s) : Prop :=
  Meets l x d ∧ ∀ d', Meets l x d' → linearCost l x d ≤ linearCost l x d' ∧ (linearCost l x d' = linearCost l x d → ∀ b, b < n → d' b = d b)

/-- The sum of the weighted squares of the deviations, not linearised. -/
noncomputable def fullCost (l : List (Reading s)) (x : Nat → Polar s) : ℝ :=
  (l.map fun R => if R.var = 0 then 0 else (R.target - R.predict x) ^ 2 / R.var).sum

/-! ## The readings of a grid -/

/-- The phasors of the unknowns. -/
noncomputable def phasors (x : Nat → Polar s) (b : Nat) : CV s := fun p => ((x b).v p : ℂ) * Complex.exp (Complex.I * ((x b).theta p : ℂ))

/-- The readings of a complex measurement: a real and an imaginary part for every phase. -/
noncomputable def complexReadings (f : (Nat → Polar s) → CV s) (value : CV s) (vr vi : Fin s.phases → ℝ) : List (Reading s) :=
  (List.finRange s.phases).flatMap fun p => [⟨fun x => (f x p).re, (value p).re, vr p⟩, ⟨fun x => (f x p).im, (value p).im, vi p⟩]

/-- The bus with the reference angle if no angle is measured: the slack bus if its voltage is measured, otherwise the first bus whose voltage is. -/
noncomputable def referenceBus (n slack : Nat) (M : Measured s) : Nat :=
  open Classical in if M.voltage slack ≠ none then slack else sInf {b | b < n ∧ M.voltage b ≠ none}

/-- The measured magnitude. -/
noncomputable def measuredMagnitude : VoltValue s → Fin s.phases → ℝ
  | .magnitude m => m
  | .phasor u => fun p => ‖u p‖

open Classical in
/-- The measured angle; without any, that of a symmetric voltage at the reference bus. -/
noncomputable def measuredAngle (n slack : Nat) (M : Measured s) (b : Nat) : VoltValue s → Option (Fin s.phases → ℝ)
  | .phasor u => some fun p => Complex.arg (u p)
  | .magnitude _ => if ¬ HasAngle n M ∧ b = referenceBus n slack M then some fun p => Complex.arg (spread s 1 p) else none

/-- The readings of the voltage of a bus. -/
noncomputable def voltageReadings (n slack : Nat) (M : Measured s) (b : Nat) : List (Reading s) :=
  match M.voltage b with
  | none => []
  | some m =>
    ((List.finRange s.phases).map fun p => ⟨fun x => (x b).v p, measuredMagnitude m.value p, m.var⟩) ++
    match measuredAngle n slack M b m.value with
    | none => []
    | some a => (List.finRange s.phases).map fun p => ⟨fun x => (x b).theta p, a p, m.var⟩

/-- The power that flows with a current out of a bus. -/
noncomputable def flowPower (x : Nat → Polar s) (o : Option Nat) (i : CV s) : CV s := fun p => sideVoltage (phasors x) o p * star (i p)

/-- What a current sensor shows: with a global angle the current, with a local one its angle relative to the voltage, with the sign of a power. -/
noncomputable def shownCurrent (glob : Bool) (x : Nat → Polar s) (o : Option Nat) (i : CV s) : CV s :=
  match o, glob with
  | _, true => i
  | some b, false => fun p => Complex.exp (Complex.I * ((x b).theta p : ℂ)) * star (i p)
  | none, false => 0

/-- The readings of a shunt, in injection direction. -/
noncomputable def shuntReadings (P : Param (CM s)) (M : Measured s) (y : Nat × Nat) : List (Reading s) :=
  match M.shunt y.2 with
  | none => []
  | some m => complexReadings (fun x => flowPower x (some y.1) (-(P.shunt y.2).mulVec (phasors x y.1))) m.value m.vp m.vq

/-- The end of a branch at a side. -/
def endAt (b : (Option Nat × Option Nat) × Nat) (side : Fin 2) : Option Nat := if side = 0 then b.1.1 else b.1.2

/-- The current into a branch at a side. -/
noncomputable def currentInto (P : Param (CM s)) (b : (Option Nat × Option Nat) × Nat) (side : Fin 2) (u : Nat → CV s) : CV s :=
  if side = 0 then fromCurrent P b u else toCurrent P b u

/-- The readings of a power sensor at a side of a branch. -/
noncomputable def powerReadings (P : Param (CM s)) (M : Measured s) (b : (Option Nat × Option Nat) × Nat) (side : Fin 2) : List (Reading s) :=
  match M.branchPower side b.2 with
  | none => []
  | some m => complexReadings (fun x => flowPower x (endAt b side) (currentInto P b side (phasors x))) m.value m.vp m.vq

/-- The readings of a current sensor at a side of a branch. -/
noncomputable def currentReadings (P : Param (CM s)) (M : Measured s) (b : (Option Nat × Option Nat) × Nat) (side : Fin 2) : List (Reading s) :=
  match M.branchCurrent side b.2 with
  | none => []
  | some m => complexReadings (fun x => shownCurrent m.globalAngle x (endAt b side) (currentInto P b side (phasors x))) m.value m.vr m.vi

/-- The readings of a branch. -/
noncomputable def branchReadings (P : Param (CM s)) (M : Measured s) (b : (Option Nat × Option Nat) × Nat) : List (Reading s) :=
  powerReadings P M b 0 ++ powerReadings P M b 1 ++ currentReadings P M b 0 ++ currentReadings P M b 1

/-- The readings of the injection of a bus. -/
noncomputable def injectionReadings (T : Topo) (P : Param (CM s)) (M : Measured s) (b : Nat) : List (Reading s) :=
  match M.injection b with
  | none => []
  | some m => complexReadings (fun x => flowPower x (some b) (nodalCurrent T P (phasors x) b)) m.value m.vp m.vq

/-- All readings but those of injections. -/
noncomputable def mainReadings (T : Topo) (P : Param (CM s)) (slack : Nat) (M : Measured s) : List (Reading s) :=
  (List.range T.nBus).flatMap (voltageReadings T.nBus slack M) ++ T.shuntBus.zipIdx.flatMap (shuntReadings P M) ++
    T.branches.zipIdx.flatMap (branchReadings P M)

/-- All readings. -/
noncomputable def readings (T : Topo) (P : Param (CM s)) (slack : Nat) (M : Measured s) : List (Reading s) :=
  mainReadings T P slack M ++ (List.range T.nBus).flatMap (injectionReadings T P M)

/-! ## Assumptions -/

/-- The variances are meaningful: zero, a constraint, only for injections. -/
structure Variances (M : Measured s) : Prop where
  voltage : ∀ b m, M.voltage b = some m → 0 < m.var
  injection : ∀ b m, M.injection b = some m → ∀ p, 0 ≤ m.vp p ∧ 0 ≤ m.vq p
  shunt : ∀ k m, M.shunt k = some m → ∀ p, 0 < m.vp p ∧ 0 < m.vq p
  power : ∀ side k m, M.branchPower side k = some m → ∀ p, 0 < m.vp p ∧ 0 < m.vq p
  current : ∀ side k m, M.branchCurrent side k = some m → ∀ p, 0 < m.vr p ∧ 0 < m.vi p

/-- The matrix has no entries off its diagonal: the phases are not coupled. In symmetric calculations all are. -/
def Uncoupled (a : CM s) : Prop := ∀ p q, p ≠ q → a p q = 0

/-- The measured branches and shunts do not couple the phases. -/
structure MeasuredUncoupled (P : Param (CM s)) (M : Measured s) : Prop where
  shunt : ∀ k m, M.shunt k = some m → Uncoupled (P.shunt k)
  branch : ∀ side k, (M.branchPower side k ≠ none ∨ M.branchCurrent side k ≠ none) → ∀ o, Uncoupled (branchValue P k side o)

/-- The measured branches are connected at both sides. -/
def MeasuredClosed (T : Topo) (M : Measured s) : Prop :=
  ∀ b ∈ T.branches.zipIdx, ∀ side, (M.branchPower side b.2 ≠ none ∨ M.branchCurrent side b.2 ≠ none) → b.1.1 ≠ none ∧ b.1.2 ≠ none

open Classical in
/-- The measurements without the sensors of branches that are not connected at both sides. -/
noncomputable def withoutHalfOpen (T : Topo) (M : Measured s) : Measured s :=
  { M with
    branchPower := fun side k => if ∃ f t, T.branches[k]? = some (some f, some t) then M.branchPower side k else none
    branchCurrent := fun side k => if ∃ f t, T.branches[k]? = some (some f, some t) then M.branchCurrent side k else none }

/-- No voltage is zero. -/
def NonZero (n : Nat) (x : Nat → Polar s) : Prop := ∀ b, b < n → ∀ p, (x b).v p ≠ 0

end PGM.NewtonSe
