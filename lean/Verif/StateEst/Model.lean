import Verif.PowerFlow.EndToEnd
import Verif.Observability.Model

/-!
# The iterative linear state estimation

Prefix of all paths: `P/` = `/repo/power_grid_model_c/power_grid_model/include/power_grid_model/`. Model of
`P/math_solver/iterative_linear_se_solver.hpp` lines 30-459, and of the getters of `P/math_solver/measured_values.hpp`
lines 76-125 and 162-190. The normalisation of the variances is in `Normalize.lean`.

Simplifications: exact complex numbers. The merged measurements, which the code keeps in flat vectors with an index per object, are functions with
`none` for an object without one (C19 is about how they are merged). A division by zero is zero; infinite variances do not occur. The voltage
sensors of asymmetric calculations have either three angles or none. Vectors that the code indexes by bus are functions.
-/

namespace PGM.StateEst

open PGM.YBus PGM.Lu PGM.PowerFlow

variable {s : Symm}

/-! ## Measurements -/

/-- The value of a `VoltageSensorCalcParam`: with NaN as imaginary part, a magnitude; otherwise a phasor, `measured_values.hpp` line 81. -/
inductive VoltValue (s : Symm) where
  | magnitude (m : Fin s.phases → ℝ)
  | phasor (u : CV s)

/-- `VoltageSensorCalcParam<sym>`. -/
structure VoltM (s : Symm) where
  value : VoltValue s
  var : ℝ

/-- `PowerSensorCalcParam<sym>`: the value and the variances of the real and of the imaginary part. -/
structure PowerM (s : Symm) where
  value : CV s
  vp : Fin s.phases → ℝ
  vq : Fin s.phases → ℝ

/-- `CurrentSensorCalcParam<sym>`. -/
structure CurrM (s : Symm) where
  value : CV s
  vr : Fin s.phases → ℝ
  vi : Fin s.phases → ℝ
  /-- `angle_measurement_type == AngleMeasurementType::global_angle`. -/
  globalAngle : Bool

/-- `MeasuredValues<sym>`, the part that the estimation of the voltages uses. Sides of branches: 0 is from, 1 is to. -/
structure Measured (s : Symm) where
  voltage : Nat → Option (VoltM s)
  injection : Nat → Option (PowerM s)
  shunt : Nat → Option (PowerM s)
  branchPower : Fin 2 → Nat → Option (PowerM s)
  branchCurrent : Fin 2 → Nat → Option (CurrM s)

/-- `has_angle_measurement`, `measured_values.hpp` line 81. -/
def isPhasor : Option (VoltM s) → Bool
  | some ⟨.phasor _, _⟩ => true
  | _ => false

/-- `has_angle`, `measured_values.hpp` line 76. -/
def hasAngle (n : Nat) (M : Measured s) : Bool := (List.range n).any fun b => isPhasor (M.voltage b)

/-- A current sensor with global angle. -/
def isGlobal : Option (CurrM s) → Bool
  | some c => c.globalAngle
  | none => false

/-- What the observability check (C40) reads of the measurements. -/
def flags (T : Topo) (M : Measured s) : Observability.Meas where
  voltage b := (M.voltage b).isSome
  angle b := isPhasor (M.voltage b)
  injection b := (M.injection b).isSome
  fromPower k := (M.branchPower 0 k).isSome
  toPower k := (M.branchPower 1 k).isSome
  fromCurrent k := (M.branchCurrent 0 k).isSome
  toCurrent k := (M.branchCurrent 1 k).isSome
  globalAngleCurrent := (List.range T.branches.length).any fun k => isGlobal (M.branchCurrent 0 k) || isGlobal (M.branchCurrent 1 k)

/-! ## Conversion to currents -/

/-- `IndependentComplexRandVar<sym>`. -/
structure Cur (s : Symm) where
  value : CV s
  var : Fin s.phases → ℝ

/-- `phase_shift`, `P/common/three_phase_tensor.hpp` lines 219-228. -/
noncomputable def phaseShift (z : ℂ) : ℂ := if 0 < ‖z‖ then z / (‖z‖ : ℝ) else 1

/-- `power_to_global_current_measurement`, lines 405-411. The overload without the voltage, lines 418-423, has the same variance. -/
noncomputable def powerToCurrent (m : PowerM s) (u : CV s) : Cur s := ⟨star (m.value / u), m.vp + m.vq⟩

/-- `current_to_global_current_measurement`, lines 425-441, with `scale` of `P/common/statistics.hpp` lines 271-314. -/
noncomputable def currentToCurrent (m : CurrM s) (u : CV s) : Cur s :=
  if m.globalAngle then ⟨m.value, m.vr + m.vi⟩
  else ⟨fun p => star (m.value p) * phaseShift (u p), fun p => (m.vr p + m.vi p) * ‖phaseShift (u p)‖ ^ 2⟩

/-- The overload without the voltage, lines 443-448: the variance. -/
def currentVar (m : CurrM s) : Fin s.phases → ℝ := m.vr + m.vi

/-- `diagonal_inverse`, lines 181-183. -/
noncomputable def diagonalInverse (v : Fin s.phases → ℝ) : CM s := Matrix.diagonal fun p => ((1 / v p : ℝ) : ℂ)

/-! ## The gain matrix -/

/-- `ILSEGainBlock`, lines 49-64. -/
structure Gain (s : Symm) where
  g : CM s
  qh : CM s
  q : CM s
  r : CM s

/-- `param.branch_param[obj].value[side * 2 + b]`, `P/calculation_parameters.hpp` lines 40-50. -/
def branchValue (P : Param (CM s)) (k : Nat) (side b : Fin 2) : CM s :=
  match side, b with
  | 0, 0 => P.ff k
  | 0, 1 => P.ft k
  | 1, 0 => P.tf k
  | 1, 1 => P.tt k

/-- `std::to_underlying(type) / 2` and `std::to_underlying(type) % 2` of a branch element, lines 231-232. -/
def branchEnds : ElType → Option (Fin 2 × Fin 2)
  | .ff => some (0, 0)
  | .ft => some (0, 1)
  | .tf => some (1, 0)
  | .tt => some (1, 1)
  | _ => none

/-- `add_branch_measurement`, lines 227-239. -/
noncomputable def addBranchGain (P : Param (CM s)) (k : Nat) (b : Fin 2 × Fin 2) (side : Fin 2) (var : Fin s.phases → ℝ) (g : CM s) : CM s :=
  g + (branchValue P k side b.1).conjTranspose * diagonalInverse var * branchValue P k side b.2

/-- The power measurement of one side of a branch, lines 243-248. -/
noncomputable def gainPower (P : Param (CM s)) (M : Measured s) (k : Nat) (b : Fin 2 × Fin 2) (g : CM s) (side : Fin 2) : CM s :=
  match M.branchPower side k with
  | some m => addBranchGain P k b side (m.vp + m.vq) g
  | none => g

/-- The current measurement of one side of a branch, lines 249-254. -/
noncomputable def gainCurrent (P : Param (CM s)) (M : Measured s) (k : Nat) (b : Fin 2 × Fin 2) (g : CM s) (side : Fin 2) : CM s :=
  match M.branchCurrent side k with
  | some m => addBranchGain P k b side (currentVar m) g
  | none => g

/-- A shunt, lines 215-224. -/
noncomputable def gainShunt (P : Param (CM s)) (M : Measured s) (k : Nat) (g : CM s) : CM s :=
  match M.shunt k with
  | some m => g + (P.shunt k).conjTranspose * diagonalInverse (m.vp + m.vq) * P.shunt k
  | none => g

/-- One element of an entry, lines 211-257. -/
noncomputable def gainElem (P : Param (CM s)) (M : Measured s) (g : CM s) (e : Elem) : CM s :=
  match e.type with
  | .shunt => gainShunt P M e.idx g
  | ty =>
    match branchEnds ty with
    | some b => ([0, 1] : List (Fin 2)).foldl (fun g side => gainCurrent P M e.idx b (gainPower P M e.idx b g side) side) g
    -- not in `y_bus_element`
    | none => g

/-- `G` from the voltage measurement, lines 204-208. -/
noncomputable def gainVoltage (M : Measured s) (row col : Nat) : CM s :=
  if row = col then
    match M.voltage row with
    | some m => Matrix.diagonal fun _ => ((1 / m.var : ℝ) : ℂ)
    | none => 0
  else 0

/-- `Q` and `R`, lines 260-281. -/
noncomputable def gainInjection (y : YBus (CM s)) (M : Measured s) (row col d : Nat) : CM s × CM s :=
  match M.injection row with
  | some m => (y.admittance[d]?.getD 0, if row = col then Matrix.diagonal fun p => ((-(m.vp p + m.vq p) : ℝ) : ℂ) else 0)
  | none => (0, if row = col then Matrix.diagonal fun _ => -1 else 0)

/-- The block of one entry, lines 192-282. -/
noncomputable def gainBlock (S : YBus.Structure) (y : YBus (CM s)) (M : Measured s) (row k : Nat) : Gain s :=
  match S.mapLuYBus[k]?.getD none with
  | none => ⟨0, 0, 0, 0⟩
  | some d =>
    let col := S.colIndicesLu[k]?.getD 0
    let g := (elementsOf S d).foldl (gainElem y.param M) (gainVoltage M row col)
    let qr := gainInjection y M row col d
    ⟨g, 0, qr.1, qr.2⟩

/-- The inner loop of `prepare_matrix`, lines 192-283. -/
noncomputable def gainRow (S : YBus.Structure) (y : YBus (CM s)) (M : Measured s) (data : List (Gain s)) (row : Nat) : List (Gain s) :=
  let a := S.rowIndptrLu[row]?.getD 0
  let z := S.rowIndptrLu[row + 1]?.getD 0
  (List.range' a (z - a)).foldl (fun data k => data.set k (gainBlock S y M row k)) data

/-- One entry of the second loop, lines 289-296. -/
noncomputable def fillQh (S : YBus.Structure) (data : List (Gain s)) (k : Nat) : List (Gain s) :=
  match S.mapLuYBus[k]?.getD none with
  | none => data
  | some _ =>
    let t := S.transposeEntry[k]?.getD 0
    data.modify k fun b => { b with qh := ((data[t]?.map Gain.q).getD 0).conjTranspose }

/-- `prepare_matrix`, lines 185-297; `data` is what the vector held before. -/
noncomputable def prepareMatrix (T : Topo) (S : YBus.Structure) (y : YBus (CM s)) (M : Measured s) (data : List (Gain s)) : List (Gain s) :=
  (List.range S.colIndicesLu.length).foldl (fillQh S) ((List.range T.nBus).foldl (gainRow S y M) data)

/-- The layout of a block: two by two quarters. -/
def Gain.toBlk (b : Gain s) : Blk ℂ (s.phases + s.phases) :=
  (Matrix.fromBlocks b.g b.qh b.q b.r).submatrix finSumFinEquiv.symm finSumFinEquiv.symm

/-! ## The right-hand side -/

/-- `ILSEUnknown`, lines 33-46: `u` and `phi`; as a right-hand side `eta` and `tau`. -/
def join (a b : CV s) : Fin (s.phases + s.phases) → ℂ := fun i => Sum.elim a b (finSumFinEquiv.symm i)

/-- The first half. -/
def upper (x : Fin (s.phases + s.phases) → ℂ) : CV s := fun p => x (finSumFinEquiv (Sum.inl p))

/-- The second half. -/
def lower (x : Fin (s.phases + s.phases) → ℂ) : CV s := fun p => x (finSumFinEquiv (Sum.inr p))

/-- `combine_voltage_iteration_with_measurements`, `measured_values.hpp` lines 166-190, for one bus. -/
noncomputable def linearize (M : Measured s) (u : Nat → CV s) (b : Nat) : CV s :=
  match M.voltage b with
  | none => u b
  | some ⟨.phasor v, _⟩ => v
  | some ⟨.magnitude m, _⟩ => fun p => (m p : ℂ) * phaseShift (u b p)

/-- `add_branch_measurement`, lines 334-343. -/
noncomputable def addBranchRhs (P : Param (CM s)) (k : Nat) (b : Fin 2) (side : Fin 2) (i : Cur s) (eta : CV s) : CV s :=
  eta + dot s ((branchValue P k side b).conjTranspose * diagonalInverse i.var) i.value

/-- `branch_bus_idx[obj][side]`; the voltage at `-1` is not read by the code, as the measurements of a disconnected side are ignored. -/
def measuredVoltage (T : Topo) (v : Nat → CV s) (k : Nat) (side : Fin 2) : CV s :=
  match T.branches[k]? with
  | some b => sideVoltage v (if side = 0 then b.1 else b.2)
  | none => 0

/-- The power measurement of one side, lines 351-355. -/
noncomputable def rhsPower (T : Topo) (P : Param (CM s)) (M : Measured s) (v : Nat → CV s) (k : Nat) (b : Fin 2) (eta : CV s) (side : Fin 2) :
    CV s :=
  match M.branchPower side k with
  | some m => addBranchRhs P k b side (powerToCurrent m (measuredVoltage T v k side)) eta
  | none => eta

/-- The current measurement of one side, lines 356-361. -/
noncomputable def rhsCurrent (T : Topo) (P : Param (CM s)) (M : Measured s) (v : Nat → CV s) (k : Nat) (b : Fin 2) (eta : CV s) (side : Fin 2) :
    CV s :=
  match M.branchCurrent side k with
  | some m => addBranchRhs P k b side (currentToCurrent m (measuredVoltage T v k side)) eta
  | none => eta

/-- A shunt, lines 323-330. -/
noncomputable def rhsShunt (P : Param (CM s)) (M : Measured s) (v : Nat → CV s) (bus k : Nat) (eta : CV s) : CV s :=
  match M.shunt k with
  | some m =>
    let i := powerToCurrent m (v bus)
    eta - dot s ((P.shunt k).conjTranspose * diagonalInverse i.var) i.value
  | none => eta

/-- One element of the diagonal entry, lines 317-364. -/
noncomputable def rhsElem (T : Topo) (P : Param (CM s)) (M : Measured s) (v : Nat → CV s) (bus : Nat) (eta : CV s) (e : Elem) : CV s :=
  match e.type with
  | .shunt => rhsShunt P M v bus e.idx eta
  | ty =>
    match branchEnds ty with
    | some b =>
      ([0, 1] : List (Fin 2)).foldl (fun eta side => rhsCurrent T P M v e.idx b.1 (rhsPower T P M v e.idx b.1 eta side) side) eta
    | none => eta

/-- `eta` from the voltage measurement, lines 312-315. -/
noncomputable def rhsVoltage (M : Measured s) (v : Nat → CV s) (bus : Nat) : CV s :=
  match M.voltage bus with
  | some m => fun p => v bus p / (m.var : ℝ)
  | none => 0

/-- `tau`, lines 366-368. -/
noncomputable def rhsInjection (M : Measured s) (v : Nat → CV s) (bus : Nat) : CV s :=
  match M.injection bus with
  | some m => (powerToCurrent m (v bus)).value
  | none => 0

/-- `prepare_rhs`, lines 299-370, for one bus; `v` are the linearised voltages. -/
noncomputable def rhsBlock (T : Topo) (S : YBus.Structure) (P : Param (CM s)) (M : Measured s) (v : Nat → CV s) (bus : Nat) :
    Fin (s.phases + s.phases) → ℂ :=
  join ((elementsOf S (S.busEntry[bus]?.getD 0)).foldl (rhsElem T P M v bus) (rhsVoltage M v bus)) (rhsInjection M v bus)

/-- `prepare_rhs`, lines 299-370. -/
noncomputable def prepareRhs (T : Topo) (S : YBus.Structure) (P : Param (CM s)) (M : Measured s) (u : Nat → CV s) :
    List (Fin (s.phases + s.phases) → ℂ) := (List.range T.nBus).map (rhsBlock T S P M (linearize M u))

/-! ## Iterations -/

/-- An island: topology, structure and values of the admittance matrix, the slack bus, whether the grid is radial, and the phase shifts. -/
structure SeNet (s : Symm) where
  T : Topo
  S : YBus.Structure
  y : YBus (CM s)
  slack : Nat
  radial : Bool

/-- Phase a of a value. -/
def phaseA (u : CV s) : ℂ :=
  match s, u with
  | .sym, u => u (0 : Fin 1)
  | .asym, u => u (0 : Fin 3)

/-- `angle_offset`, lines 376-389. -/
noncomputable def angleOffset (angle : Bool) (slack : CV s) : ℂ :=
  if angle then 1 else (‖phaseA slack‖ : ℝ) / phaseA slack

/-- The new voltage of a bus, line 393. -/
noncomputable def newVoltage (N : SeNet s) (M : Measured s) (x : List (Fin (s.phases + s.phases) → ℂ)) (b : Nat) : CV s :=
  fun p => upper (x[b]?.getD 0) p * angleOffset (hasAngle N.T.nBus M) (upper (x[N.slack]?.getD 0))

/-- `max_dev` of `iterate_unknown`, lines 391-400. -/
noncomputable def deviation (n : Nat) (u u' : Nat → CV s) : ℝ :=
  (List.range n).foldl (fun m b => max m ((List.finRange s.phases).foldl (fun m p => max m ‖u' b p - u b p‖) 0)) 0

/-- What the estimation can end with, other than a result. -/
inductive SeErr where
  | observability (r : Observability.Reason)
  | sparse (e : Err)
  | diverge

/-- `solve_with_prefactorized_matrix`, `P/math_solver/sparse_lu_solver.hpp` lines 310-318, with the right-hand side in the vector of the
unknowns. -/
noncomputable def solvePrefactorized {n : Nat} (p : Pattern) (f : Factors ℂ n) (data : List (Blk ℂ n)) (x : List (Fin n → ℂ)) :
    Except Err (List (Fin n → ℂ)) :=
  if f.perturbed then solveRefined p f data x else solveOnce p f none x

/-- The body of the loop, lines 132-144. -/
noncomputable def seIteration (N : SeNet s) (M : Measured s) (f : Factors ℂ (s.phases + s.phases)) (data : List (Blk ℂ (s.phases + s.phases)))
    (u : Nat → CV s) : Except Err ((Nat → CV s) × ℝ) := do
  let x ← solvePrefactorized (luPattern N.S) f data (prepareRhs N.T N.S N.y.param M u)
  .ok (newVoltage N M x, deviation N.T.nBus u (newVoltage N M x))

/-- The loop of lines 130-144 with `left` iterations left. -/
noncomputable def seLoop (N : SeNet s) (M : Measured s) (f : Factors ℂ (s.phases + s.phases)) (data : List (Blk ℂ (s.phases + s.phases)))
    (tol : ℝ) : Nat → (Nat → CV s) → Except SeErr (Nat → CV s)
  | 0, _ => .error .diverge
  | left + 1, u =>
    match seIteration N M f data u with
    | .error e => .error (.sparse e)
    | .ok (u', dev) => if dev > tol then seLoop N M f data tol left u' else .ok u'

/-- The blocks of the gain matrix. -/
noncomputable def gainData (N : SeNet s) (M : Measured s) (old : List (Gain s)) : List (Blk ℂ (s.phases + s.phases)) :=
  (prepareMatrix N.T N.S N.y M old).map Gain.toBlk

/-- `run_state_estimation` up to the voltages, lines 98-144. `old` and `perms` are what the members held before, `start` the initial voltages of
lines 122-127. -/
noncomputable def seVoltages (N : SeNet s) (M : Measured s) (tol : ℝ) (maxIter : Nat) (old : List (Gain s))
    (perms : List (BlockPerm (s.phases + s.phases))) (start : Nat → CV s) : Except SeErr (Nat → CV s) :=
  match Observability.check N.T N.radial N.S (flags N.T M) with
  | .returns obs ill =>
    match prefactorize (luPattern N.S) (ill && obs) (gainData N M old) perms with
    | .error e => .error (.sparse e)
    | .ok f => seLoop N M f (gainData N M old) tol maxIter start
  | .throws r => .error (.observability r)

end PGM.StateEst
