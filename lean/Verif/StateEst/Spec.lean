import Verif.StateEst.Model
import Mathlib.Analysis.SpecialFunctions.Complex.Arg

/-!
# What a weighted least squares estimate is

The specification of C52 and C53. It uses the measurements, the admittances of the branches and the shunts and the nodal admittance matrix (C14),
and nothing of how the solver arranges its equations.
-/

namespace PGM.StateEst

open PGM.YBus PGM.PowerFlow

variable {s : Symm}

/-- A measurement of a quantity that depends on the voltages: what the voltages predict, what was measured, and the variance per phase. -/
structure Term (s : Symm) where
  predict : (Nat → CV s) → CV s
  target : CV s
  var : Fin s.phases → ℝ

/-- The weighted square of the deviation. A phase with variance zero is not part of it, but a constraint. -/
noncomputable def Term.misfit (t : Term s) (u : Nat → CV s) : ℝ :=
  ∑ p, if t.var p = 0 then 0 else ‖t.predict u p - t.target p‖ ^ 2 / t.var p

/-- The sum of all weighted squares. -/
noncomputable def cost (l : List (Term s)) (u : Nat → CV s) : ℝ := (l.map fun t => t.misfit u).sum

/-- The voltages meet the measurements with variance zero. -/
def Feasible (l : List (Term s)) (u : Nat → CV s) : Prop := ∀ t ∈ l, ∀ p, t.var p = 0 → t.predict u p = t.target p

/-- The voltages of the buses below `n` are the weighted least squares estimate, and the only one. -/
def IsEstimate (n : Nat) (l : List (Term s)) (u : Nat → CV s) : Prop :=
  Feasible l u ∧ ∀ u', Feasible l u' → cost l u ≤ cost l u' ∧ (cost l u' = cost l u → ∀ b, b < n → u' b = u b)

/-! ## The measurements of a grid -/

/-- The current that flows into all branches and shunts of a bus. -/
noncomputable def nodalCurrent (T : Topo) (P : Param (CM s)) (u : Nat → CV s) (b : Nat) : CV s :=
  ∑ c ∈ Finset.range T.nBus, (nodal T P b c).mulVec (u c)

/-- The current into a branch at its from side. -/
noncomputable def fromCurrent (P : Param (CM s)) (b : (Option Nat × Option Nat) × Nat) (u : Nat → CV s) : CV s :=
  (P.ff b.2).mulVec (sideVoltage u b.1.1) + (P.ft b.2).mulVec (sideVoltage u b.1.2)

/-- The current into a branch at its to side. -/
noncomputable def toCurrent (P : Param (CM s)) (b : (Option Nat × Option Nat) × Nat) (u : Nat → CV s) : CV s :=
  (P.tf b.2).mulVec (sideVoltage u b.1.1) + (P.tt b.2).mulVec (sideVoltage u b.1.2)

/-- The current of a measured power at an assumed voltage. -/
noncomputable def asCurrent (m : PowerM s) (v : CV s) : CV s := fun p => star (m.value p / v p)

/-- The global phasor of a measured current: a local one is measured relative to the angle of the voltage, with the sign of a power. -/
noncomputable def asGlobal (m : CurrM s) (v : CV s) : CV s :=
  if m.globalAngle then m.value else fun p => star (m.value p) * Complex.exp (Complex.arg (v p) * Complex.I)

/-- The measured voltages; `v` is the assumed voltage, see `assumed`. -/
noncomputable def voltageTerms (n : Nat) (M : Measured s) (v : Nat → CV s) : List (Term s) :=
  (List.range n).filterMap fun b => (M.voltage b).map fun m => ⟨fun u => u b, v b, fun _ => m.var⟩

/-- The measured shunts, in injection direction. -/
noncomputable def shuntTerms (T : Topo) (P : Param (CM s)) (M : Measured s) (v : Nat → CV s) : List (Term s) :=
  T.shuntBus.zipIdx.filterMap fun x => (M.shunt x.2).map fun m =>
    ⟨fun u => -(P.shunt x.2).mulVec (u x.1), asCurrent m (v x.1), m.vp + m.vq⟩

/-- The sensors of one branch. -/
noncomputable def oneBranch (P : Param (CM s)) (M : Measured s) (v : Nat → CV s) (b : (Option Nat × Option Nat) × Nat) : List (Term s) :=
  ((M.branchPower 0 b.2).map fun m => ⟨fromCurrent P b, asCurrent m (sideVoltage v b.1.1), m.vp + m.vq⟩).toList ++
  ((M.branchCurrent 0 b.2).map fun m => ⟨fromCurrent P b, asGlobal m (sideVoltage v b.1.1), m.vr + m.vi⟩).toList ++
  ((M.branchPower 1 b.2).map fun m => ⟨toCurrent P b, asCurrent m (sideVoltage v b.1.2), m.vp + m.vq⟩).toList ++
  ((M.branchCurrent 1 b.2).map fun m => ⟨toCurrent P b, asGlobal m (sideVoltage v b.1.2), m.vr + m.vi⟩).toList

/-- The measured branches. -/
noncomputable def branchTerms (T : Topo) (P : Param (CM s)) (M : Measured s) (v : Nat → CV s) : List (Term s) :=
  T.branches.zipIdx.flatMap (oneBranch P M v)

/-- The measured injections. -/
noncomputable def injectionTerms (T : Topo) (P : Param (CM s)) (M : Measured s) (v : Nat → CV s) : List (Term s) :=
  (List.range T.nBus).filterMap fun b => (M.injection b).map fun m =>
    ⟨fun u => nodalCurrent T P u b, asCurrent m (v b), m.vp + m.vq⟩

/-- All measurements, with powers and local currents converted to currents at the assumed voltages `v`. -/
noncomputable def terms (T : Topo) (P : Param (CM s)) (M : Measured s) (v : Nat → CV s) : List (Term s) :=
  voltageTerms T.nBus M v ++ shuntTerms T P M v ++ branchTerms T P M v ++ injectionTerms T P M v

/-- The voltage that is assumed for a bus: its measured phasor, its measured magnitude at the last angle, or its last voltage. -/
noncomputable def assumed (M : Measured s) (u : Nat → CV s) (b : Nat) : CV s :=
  match M.voltage b with
  | none => u b
  | some ⟨.phasor v, _⟩ => v
  | some ⟨.magnitude m, _⟩ => fun p => (m p : ℂ) * Complex.exp (Complex.arg (u b p) * Complex.I)

/-- The measurements are meaningful: voltages, branches and shunts are measured with positive variances, injections with non-negative ones (zero
is a constraint). -/
structure Measured.Valid (M : Measured s) : Prop where
  voltage : ∀ b m, M.voltage b = some m → 0 < m.var
  injection : ∀ b m, M.injection b = some m → ∀ p, 0 ≤ m.vp p + m.vq p
  shunt : ∀ k m, M.shunt k = some m → ∀ p, 0 < m.vp p + m.vq p
  power : ∀ side k m, M.branchPower side k = some m → ∀ p, 0 < m.vp p + m.vq p
  current : ∀ side k m, M.branchCurrent side k = some m → ∀ p, 0 < m.vr p + m.vi p

/-- No branch connects a bus to itself. -/
def NoLoops (T : Topo) : Prop := ∀ b ∈ T.branches, ∀ r, ¬ (b.1 = some r ∧ b.2 = some r)

/-- A bus has a measured voltage angle. -/
def HasAngle (n : Nat) (M : Measured s) : Prop := ∃ b, b < n ∧ ∃ u var, M.voltage b = some ⟨.phasor u, var⟩

/-- The voltages rotated so that phase a of the slack bus has angle zero. -/
noncomputable def rotated (slack : Nat) (w : Nat → CV s) (b : Nat) : CV s :=
  fun p => w b p * Complex.exp (-(Complex.arg (phaseA (w slack)) * Complex.I))

open Classical in
/-- The voltages that are reported for an estimate: the estimate itself if an angle is measured, and otherwise, as then all angles are only known
up to a common one, the rotated estimate. -/
noncomputable def reported (n slack : Nat) (M : Measured s) (w : Nat → CV s) (b : Nat) : CV s :=
  if HasAngle n M then w b else rotated slack w b

/-- An island as the solver gets it: the structure is that of the topology, the admittance matrix belongs to the parameters (C15), and the pattern
is closed under elimination (C13). -/
structure SeNet.Valid (N : SeNet s) : Prop where
  topo : N.T.Valid
  fill : FillClosed N.T
  structure_ : build N.T = some N.S
  coherent : Coherent N.S N.y
  slack : N.slack < N.T.nBus

/-! ## Measurements without errors -/

/-- The power that a current takes at a voltage. -/
def IsPower (value u i : CV s) : Prop := ∀ p, u p ≠ 0 ∧ value p = u p * star (i p)

/-- A current sensor shows the current `i` at the voltage `u`. -/
def ShowsCurrent (m : CurrM s) (u i : CV s) : Prop :=
  if m.globalAngle then m.value = i else ∀ p, m.value p = Complex.exp (Complex.arg (u p) * Complex.I) * star (i p)

/-- Every sensor shows the value that the voltages `u` of the buses cause. -/
structure Exact (T : Topo) (P : Param (CM s)) (M : Measured s) (u : Nat → CV s) : Prop where
  phasor : ∀ b v var, M.voltage b = some ⟨.phasor v, var⟩ → v = u b
  magnitude : ∀ b v var, M.voltage b = some ⟨.magnitude v, var⟩ → ∀ p, v p = ‖u b p‖
  injection : ∀ b m, b < T.nBus → M.injection b = some m → IsPower m.value (u b) (nodalCurrent T P u b)
  shunt : ∀ x ∈ T.shuntBus.zipIdx, ∀ m, M.shunt x.2 = some m → IsPower m.value (u x.1) (-(P.shunt x.2).mulVec (u x.1))
  fromPower : ∀ b ∈ T.branches.zipIdx, ∀ m, M.branchPower 0 b.2 = some m → IsPower m.value (sideVoltage u b.1.1) (fromCurrent P b u)
  toPower : ∀ b ∈ T.branches.zipIdx, ∀ m, M.branchPower 1 b.2 = some m → IsPower m.value (sideVoltage u b.1.2) (toCurrent P b u)
  fromCurrent : ∀ b ∈ T.branches.zipIdx, ∀ m, M.branchCurrent 0 b.2 = some m → ShowsCurrent m (sideVoltage u b.1.1) (fromCurrent P b u)
  toCurrent : ∀ b ∈ T.branches.zipIdx, ∀ m, M.branchCurrent 1 b.2 = some m → ShowsCurrent m (sideVoltage u b.1.2) (toCurrent P b u)

/-- The bus has a measured phasor. -/
def PhasorAt (M : Measured s) (b : Nat) : Prop := ∃ v var, M.voltage b = some ⟨.phasor v, var⟩

/-- All measured voltages are phasors, and the powers and local currents are measured where the voltage is. Then no voltage has to be assumed. -/
structure Linear (T : Topo) (M : Measured s) : Prop where
  phasors : ∀ b m, M.voltage b = some m → PhasorAt M b
  injection : ∀ b m, b < T.nBus → M.injection b = some m → PhasorAt M b
  shunt : ∀ x ∈ T.shuntBus.zipIdx, ∀ m, M.shunt x.2 = some m → PhasorAt M x.1
  fromSide : ∀ b ∈ T.branches.zipIdx, ((∃ m, M.branchPower 0 b.2 = some m) ∨ ∃ m, M.branchCurrent 0 b.2 = some m ∧ m.globalAngle = false) →
    ∀ r, b.1.1 = some r → PhasorAt M r
  toSide : ∀ b ∈ T.branches.zipIdx, ((∃ m, M.branchPower 1 b.2 = some m) ∨ ∃ m, M.branchCurrent 1 b.2 = some m ∧ m.globalAngle = false) →
    ∀ r, b.1.2 = some r → PhasorAt M r

end PGM.StateEst
