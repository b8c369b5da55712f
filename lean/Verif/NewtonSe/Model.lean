import Verif.StateEst.Sensors
import Verif.Newton.Model

/-!
# The Newton-Raphson state estimation

Prefix of all paths: `P/` = `/repo/power_grid_model_c/power_grid_model/include/power_grid_model/`. Model of
`P/math_solver/newton_raphson_se_solver.hpp` lines 38-825. Line numbers without a file are of that file.

Simplifications: exact real and complex numbers; a division by zero is zero. The merged measurements are those of `Verif/StateEst/Model.lean`. The
vector `u`, which always holds the phasors of `x_`, is not kept apart. Vectors that the code indexes by bus are functions. The sparse solver
overwrites the matrix and the right-hand side, which no later step reads before it clears them.
-/

namespace PGM.NewtonSe

open PGM.YBus PGM.Lu PGM.PowerFlow PGM.StateEst Matrix
open PGM.NewtonPf (RM Polar phasor)

variable {s : Symm}

/-! ## Blocks -/

/-- The two halves of half a block: angles and magnitudes, or active and reactive powers. -/
abbrev Two (s : Symm) := Fin s.phases ⊕ Fin s.phases

/-- A quarter of a `NRSEGainBlock`, and `NRSEJacobian`, lines 141-154: `dP_dt`, `dP_dv`, `dQ_dt`, `dQ_dv`. -/
abbrev QM (s : Symm) := Matrix (Two s) (Two s) ℝ

/-- Half a `NRSEUnknown`. -/
abbrev QV (s : Symm) := Two s → ℝ

/-- `NRSEGainBlock`, lines 60-99. -/
structure Block (s : Symm) where
  g : QM s
  qt : QM s
  q : QM s
  r : QM s

/-- A cleared block. -/
def Block.zero : Block s := ⟨0, 0, 0, 0⟩

/-- `NRSERhs`, lines 38-58: `eta_theta`, `eta_v` and `tau_p`, `tau_q`. -/
structure Rhs (s : Symm) where
  eta : QV s
  tau : QV s

/-- `data_gain_` and `delta_x_rhs_`. -/
structure Sys (s : Symm) where
  gain : List (Block s)
  rhs : Nat → Rhs s

/-- `x_`: angles and magnitudes, and `phi_p`, `phi_q`. -/
structure State (s : Symm) where
  x : Nat → Polar s
  phi : Nat → QV s

/-- `+=` on the first quarter of a block. -/
noncomputable def addG (k : Nat) (m : QM s) (x : Sys s) : Sys s := { x with gain := x.gain.modify k fun b => { b with g := b.g + m } }

/-- `add_injection_jacobian`, lines 745-750. -/
noncomputable def addQ (k : Nat) (m : QM s) (x : Sys s) : Sys s := { x with gain := x.gain.modify k fun b => { b with q := b.q + m } }

/-- `+=` on the first half of the right-hand side. -/
noncomputable def addEta (row : Nat) (v : QV s) (x : Sys s) : Sys s :=
  { x with rhs := Function.update x.rhs row { x.rhs row with eta := (x.rhs row).eta + v } }

/-- `+=` on the second half of the right-hand side. -/
noncomputable def addTau (row : Nat) (v : QV s) (x : Sys s) : Sys s :=
  { x with rhs := Function.update x.rhs row { x.rhs row with tau := (x.rhs row).tau + v } }

/-- `clear` of a block. -/
def clearBlock (k : Nat) (x : Sys s) : Sys s := { x with gain := x.gain.modify k fun _ => .zero }

/-- `clear` of a right-hand side. -/
def clearRhs (row : Nat) (x : Sys s) : Sys s := { x with rhs := Function.update x.rhs row ⟨0, 0⟩ }

/-! ## Jacobians -/

/-- The real parts of a tensor. -/
def reM (a : CM s) : RM s := fun p q => (a p q).re

/-- The imaginary parts of a tensor. -/
def imM (a : CM s) : RM s := fun p q => (a p q).im

/-- A complex value as two real ones. -/
def parts (a : CV s) : QV s := Sum.elim (fun p => (a p).re) (fun p => (a p).im)

/-- `hm_complex_form`, lines 776-778, with `vector_outer_product` of `P/common/three_phase_tensor.hpp`. -/
noncomputable def hmForm (y : CM s) (a b : CV s) : CM s := fun p q => star (y p q) * (a p * star (b q))

/-- `dot` of a tensor and `diagonal_inverse`, lines 822-824: the columns are scaled. -/
noncomputable def scaleCols (m : CM s) (v : Fin s.phases → ℝ) : CM s := fun p q => m p q * ((1 / v q : ℝ) : ℂ)

/-- `sum_row`, `P/common/three_phase_tensor.hpp` lines 286-291. -/
noncomputable def sumRow (m : CM s) : CV s := fun p => ∑ q, m p q

/-- `calculate_jacobian`, lines 762-769. -/
def jacobian (hm nl : CM s) : QM s := fromBlocks (imM hm) (reM nl) (-reM hm) (imM nl)

/-- `jacobian_diagonal_component`, lines 687-695. -/
def diagonalPart (finv f : CV s) : QM s :=
  fromBlocks (diagonal fun p => -(f p).im) (diagonal fun p => (finv p).re) (diagonal fun p => (f p).re) (diagonal fun p => (finv p).im)

/-- `transpose_multiply_weight`, lines 703-714: the four tensors change places, but are not transposed themselves. -/
noncomputable def timesWeight (j : QM s) (m : PowerM s) : QM s :=
  let wp : RM s := diagonal fun p => 1 / m.vp p
  let wq : RM s := diagonal fun p => 1 / m.vq p
  fromBlocks (wp * j.toBlocks₁₁) (wq * j.toBlocks₂₁) (wp * j.toBlocks₁₂) (wq * j.toBlocks₂₂)

/-- The Jacobians of a branch flow with respect to the voltages at its own and at the other side, and the flow. -/
structure Flow (s : Symm) where
  own : QM s
  other : QM s
  f : CV s

/-- `process_branch_power_measurement`, lines 500-515: `a` is the voltage at the own side, `b` at the other. -/
noncomputable def powerFlow (yown yother : CM s) (a b : Polar s) : Flow s :=
  let hm := hmForm yown (phasor a) (phasor a)
  let hm' := hmForm yother (phasor a) (phasor b)
  let f := sumRow (hm + hm')
  ⟨jacobian hm (scaleCols hm a.v) + diagonalPart (fun p => ((1 / a.v p : ℝ) : ℂ) * f p) f, jacobian hm' (scaleCols hm' b.v), f⟩

/-- `process_branch_local_current_measurement`, lines 528-545. -/
noncomputable def localFlow (yown yother : CM s) (a b : Polar s) : Flow s :=
  let hm := scaleCols (hmForm yown (phasor a) (phasor a)) a.v
  let hm' := scaleCols (hmForm yother (phasor a) (phasor b)) a.v
  let f := sumRow (hm + hm')
  ⟨jacobian hm (scaleCols hm a.v) + diagonalPart 0 f, jacobian hm' (scaleCols hm' b.v), f⟩

/-- `dot` of a tensor and a `ComplexDiagonalTensor`. -/
noncomputable def timesDiagonal (y : CM s) (u : CV s) : CM s := fun p q => y p q * u q

/-- `process_branch_global_current_measurement`, lines 557-568. -/
noncomputable def globalFlow (yown yother : CM s) (a b : Polar s) : Flow s :=
  let c := timesDiagonal yown (phasor a)
  let c' := timesDiagonal yother (phasor b)
  ⟨jacobian (-c) (scaleCols c a.v), jacobian (-c') (scaleCols c' b.v), sumRow (c + c')⟩

/-- `process_shunt_measurement`, lines 459-469: the Jacobian and the power. -/
noncomputable def shuntFlow (y : CM s) (a : Polar s) : QM s × CV s :=
  let hm := hmForm (-y) (phasor a) (phasor a)
  let nl := scaleCols hm a.v
  (jacobian hm nl + diagonalPart (sumRow nl) (sumRow hm), sumRow hm)

/-! ## The equations -/

/-- The measurement in a `CurrentSensorCalcParam`. -/
def currMeasure (m : CurrM s) : PowerM s := ⟨m.value, m.vr, m.vi⟩

/-- `multiply_add_branch_blocks`, lines 579-587, with `multiply_add_jacobian_blocks_lhs` and `_rhs`, lines 722-743. -/
noncomputable def addFlow (k diag row : Nat) (left right : QM s) (m : PowerM s) (f : CV s) (x : Sys s) : Sys s :=
  addEta row ((timesWeight left m).mulVec (parts (m.value - f)))
    (addG k (timesWeight left m * right) (addG diag (timesWeight left m * left) x))

/-- The calls of `multiply_add_branch_blocks`, lines 517-523, 547-553 and 570-576. -/
noncomputable def addOrdered (k diag row : Nat) (rowMajor : Bool) (F : Flow s) (m : PowerM s) (x : Sys s) : Sys s :=
  if rowMajor then addFlow k diag row F.own F.other m F.f x else addFlow k diag row F.other F.own m F.f x

/-- The other side of a branch. -/
def otherSide (side : Fin 2) : Fin 2 := if side = 0 then 1 else 0

/-- `ij_voltage_order == Order::row_major`, lines 328-371: the side of the branch is at the bus of the row. `ft` says that the element is `bft`. -/
def rowMajor (ft : Bool) (side : Fin 2) : Bool := if side = 0 then ft else !ft

/-- The polar voltages at the own and at the other side. -/
def ends (x : Nat → Polar s) (row col : Nat) (major : Bool) : Polar s × Polar s := if major then (x row, x col) else (x col, x row)

/-- The power sensor at one side of a branch, lines 327-340. -/
noncomputable def powerSide (P : Param (CM s)) (M : Measured s) (x : Nat → Polar s) (row col k diag : Nat) (ft : Bool) (b : Nat) (sys : Sys s)
    (side : Fin 2) : Sys s :=
  match M.branchPower side b with
  | some m =>
    let e := ends x row col (rowMajor ft side)
    addOrdered k diag row (rowMajor ft side) (powerFlow (branchValue P b side side) (branchValue P b side (otherSide side)) e.1 e.2) m sys
  | none => sys

/-- The flow that a current sensor measures. -/
noncomputable def currentFlow (glob : Bool) (yown yother : CM s) (a b : Polar s) : Flow s :=
  if glob then globalFlow yown yother a b else localFlow yown yother a b

/-- The current sensor at one side of a branch, lines 341-380. -/
noncomputable def currentSide (P : Param (CM s)) (M : Measured s) (x : Nat → Polar s) (row col k diag : Nat) (ft : Bool) (b : Nat) (sys : Sys s)
    (side : Fin 2) : Sys s :=
  match M.branchCurrent side b with
  | some m =>
    let e := ends x row col (rowMajor ft side)
    addOrdered k diag row (rowMajor ft side)
      (currentFlow m.globalAngle (branchValue P b side side) (branchValue P b side (otherSide side)) e.1 e.2) (currMeasure m) sys
  | none => sys

/-- `bft` and `btf`, lines 324-383. -/
noncomputable def branchElem (P : Param (CM s)) (M : Measured s) (x : Nat → Polar s) (row col k diag : Nat) (ft : Bool) (b : Nat) (sys : Sys s) :
    Sys s :=
  ([0, 1] : List (Fin 2)).foldl (currentSide P M x row col k diag ft b) (([0, 1] : List (Fin 2)).foldl (powerSide P M x row col k diag ft b) sys)

/-- `shunt`, lines 317-323, with lines 467-470. -/
noncomputable def shuntElem (P : Param (CM s)) (M : Measured s) (x : Nat → Polar s) (row k b : Nat) (sys : Sys s) : Sys s :=
  match M.shunt b with
  | some m =>
    let F := shuntFlow (P.shunt b) (x row)
    addEta row ((timesWeight F.1 m).mulVec (parts (m.value - F.2))) (addG k (timesWeight F.1 m * F.1) sys)
  | none => sys

/-- One element of an entry, lines 313-388. -/
noncomputable def elemStep (P : Param (CM s)) (M : Measured s) (x : Nat → Polar s) (row col k diag : Nat) (sys : Sys s) (e : Elem) : Sys s :=
  match e.type with
  | .shunt => shuntElem P M x row k e.idx sys
  | .ft => branchElem P M x row col k diag true e.idx sys
  | .tf => branchElem P M x row col k diag false e.idx sys
  | _ => sys

/-- `cabs_or_real`, `P/common/statistics.hpp` lines 369-374. -/
noncomputable def magnitudeOf : VoltValue s → Fin s.phases → ℝ
  | .magnitude m => m
  | .phasor u => fun p => ‖u p‖

/-- `virtual_angle_measurement_bus`, lines 661-663, with `first_voltage_measurement_` of `measured_values.hpp` lines 280-283. -/
def virtualBus (N : SeNet s) (M : Measured s) : Nat :=
  if (M.voltage N.slack).isSome then N.slack else ((List.range N.T.nBus).find? fun b => (M.voltage b).isSome).getD N.T.nBus

/-- The angle that is measured or assumed at a bus, lines 667-673. -/
noncomputable def angleTarget (N : SeNet s) (M : Measured s) (bus : Nat) : VoltValue s → Option (Fin s.phases → ℝ)
  | .phasor u => some fun p => Complex.arg (u p)
  | .magnitude _ =>
    if bus = virtualBus N M ∧ hasAngle N.T.nBus M = false then some fun p => Complex.arg (spread s 1 p) else none

/-- `w_theta`, lines 665-673. -/
noncomputable def angleWeight (var : ℝ) : Option (Fin s.phases → ℝ) → RM s
  | some _ => diagonal fun _ => 1 / var
  | none => 0

/-- `delta_theta`, lines 666-673. -/
def angleError (x : Polar s) : Option (Fin s.phases → ℝ) → Fin s.phases → ℝ
  | some a => a - x.theta
  | none => 0

/-- `process_voltage_measurements`, lines 647-679. -/
noncomputable def voltageStep (N : SeNet s) (M : Measured s) (x : Nat → Polar s) (bus diag : Nat) (sys : Sys s) : Sys s :=
  match M.voltage bus with
  | none => sys
  | some m =>
    let target := angleTarget N M bus m.value
    let wv : RM s := diagonal fun _ => 1 / m.var
    addEta bus (Sum.elim ((angleWeight m.var target).mulVec (angleError (x bus) target)) (wv.mulVec (magnitudeOf m.value - (x bus).v)))
      (addG diag (fromBlocks (angleWeight m.var target) 0 0 wv) sys)

/-- `process_injection_row`, lines 435-450. -/
noncomputable def injectionRow (y : CM s) (x : Nat → Polar s) (row col k diag : Nat) (sys : Sys s) : Sys s :=
  let hm := hmForm y (phasor (x row)) (phasor (x col))
  let f := sumRow hm
  addTau row (-parts f)
    (addQ diag (diagonalPart (fun p => ((1 / (x row).v p : ℝ) : ℂ) * f p) f) (addQ k (jacobian hm (scaleCols hm (x col).v)) sys))

/-- Assigning the diagonal tensors of `R`, lines 411-412 and 420-421. -/
def setR (k : Nat) (a b : Fin s.phases → ℝ) (x : Sys s) : Sys s :=
  { x with gain := x.gain.modify k fun m => { m with r := fromBlocks (diagonal a) m.r.toBlocks₁₂ m.r.toBlocks₂₁ (diagonal b) } }

/-- `process_injection_diagonal`, lines 417-422. -/
noncomputable def injectionDiagonal (m : PowerM s) (row k : Nat) (x : Sys s) : Sys s :=
  setR k (fun p => -m.vp p) (fun p => -m.vq p) (addTau row (parts m.value) x)

/-- The injection, lines 390-399, with `virtually_remove_constraints`, lines 410-413. -/
noncomputable def injectionStep (y : YBus (CM s)) (M : Measured s) (x : Nat → Polar s) (row col k diag d : Nat) (sys : Sys s) : Sys s :=
  match M.injection row with
  | some m =>
    let sys' := injectionRow (y.admittance[d]?.getD 0) x row col k diag sys
    if row = col then injectionDiagonal m row k sys' else sys'
  | none => if row = col then setR k (fun _ => -1) (fun _ => -1) sys else sys

/-- The column of an entry. -/
def colOf (S : YBus.Structure) (k : Nat) : Nat := S.colIndicesLu[k]?.getD 0

/-- The start of one entry, lines 290-297. -/
noncomputable def entryStart (N : SeNet s) (M : Measured s) (x : Nat → Polar s) (row diag : Nat) (sys : Sys s) (k : Nat) : Sys s :=
  if row = colOf N.S k then voltageStep N M x row diag sys else clearBlock k sys

/-- One entry of a row, lines 285-400. -/
noncomputable def entryStep (N : SeNet s) (M : Measured s) (x : Nat → Polar s) (row diag : Nat) (sys : Sys s) (k : Nat) : Sys s :=
  match N.S.mapLuYBus[k]?.getD none with
  | none => entryStart N M x row diag sys k
  | some d =>
    injectionStep N.y M x row (colOf N.S k) k diag d
      ((elementsOf N.S d).foldl (elemStep N.y.param M x row (colOf N.S k) k diag) (entryStart N M x row diag sys k))

/-- The entries of a row. -/
def rowEntries (S : YBus.Structure) (row : Nat) : List Nat :=
  List.range' (S.rowIndptrLu[row]?.getD 0) (S.rowIndptrLu[row + 1]?.getD 0 - S.rowIndptrLu[row]?.getD 0)

/-- One row, lines 272-401. -/
noncomputable def rowStep (N : SeNet s) (M : Measured s) (x : Nat → Polar s) (sys : Sys s) (row : Nat) : Sys s :=
  let diag := N.S.diagLu[row]?.getD 0
  (rowEntries N.S row).foldl (entryStep N M x row diag) (clearBlock diag (clearRhs row sys))

/-- One call of `func` in `iterate_matrix_skip_fills`, lines 618-636. -/
def skipFills (S : YBus.Structure) (func : Nat → Nat → Sys s → Sys s) (row : Nat) (sys : Sys s) (k : Nat) : Sys s :=
  match S.mapLuYBus[k]?.getD none with
  | none => sys
  | some _ => func row k sys

/-- `iterate_matrix_skip_fills`, lines 618-636. -/
def iterateMatrix (N : SeNet s) (func : Nat → Nat → Sys s → Sys s) (sys : Sys s) : Sys s :=
  (List.range N.T.nBus).foldl (fun sys row => (rowEntries N.S row).foldl (skipFills N.S func row) sys) sys

/-- `fill_qt`, lines 592-598. -/
def fillQt (S : YBus.Structure) (_row k : Nat) (sys : Sys s) : Sys s :=
  let t := S.transposeEntry[k]?.getD 0
  { sys with gain := sys.gain.modify k fun b => { b with qt := ((sys.gain[t]?.map Block.q).getD 0).transpose } }

/-- `process_lagrange_multiplier`, lines 603-615. -/
noncomputable def addMultiplier (S : YBus.Structure) (phi : Nat → QV s) (row k : Nat) (sys : Sys s) : Sys s :=
  addEta row (((sys.gain[k]?.map Block.qt).getD 0).mulVec (phi (colOf S k))) sys

/-- `prepare_matrix_and_rhs`, lines 264-406. -/
noncomputable def prepare (N : SeNet s) (M : Measured s) (st : State s) (old : Sys s) : Sys s :=
  iterateMatrix N (addMultiplier N.S st.phi) (iterateMatrix N (fillQt N.S) ((List.range N.T.nBus).foldl (rowStep N M st.x) old))

/-! ## Iterations -/

/-- The layout of a block. -/
def slot (s : Symm) : Two s ⊕ Two s ≃ Fin ((s.phases + s.phases) + (s.phases + s.phases)) :=
  (Equiv.sumCongr finSumFinEquiv finSumFinEquiv).trans finSumFinEquiv

/-- The layout of a block. -/
def Block.toBlk (b : Block s) : Blk ℝ ((s.phases + s.phases) + (s.phases + s.phases)) :=
  (fromBlocks b.g b.qt b.q b.r).submatrix (slot s).symm (slot s).symm

/-- The layout of an unknown. -/
def Rhs.toVec (r : Rhs s) : Fin ((s.phases + s.phases) + (s.phases + s.phases)) → ℝ := fun i => Sum.elim r.eta r.tau ((slot s).symm i)

/-- The halves of an unknown. -/
def ofVec (v : Fin ((s.phases + s.phases) + (s.phases + s.phases)) → ℝ) : Rhs s := ⟨fun i => v (slot s (.inl i)), fun i => v (slot s (.inr i))⟩

/-- The right-hand side as it is given to the sparse solver. -/
def rhsList (n : Nat) (x : Sys s) : List (Fin ((s.phases + s.phases) + (s.phases + s.phases)) → ℝ) :=
  (List.range n).map fun b => (x.rhs b).toVec

/-- `prefactorize_and_solve`, lines 196-198: the changes of the unknowns. -/
noncomputable def solve (N : SeNet s) (use : Bool) (perms : List (BlockPerm ((s.phases + s.phases) + (s.phases + s.phases)))) (x : Sys s) :
    Except Err (Nat → Rhs s) :=
  match factorizeAndSolve (luPattern N.S) use (x.gain.map Block.toBlk) perms (rhsList N.T.nBus x) with
  | .error e => .error e
  | .ok y => .ok fun b => ofVec (y[b]?.getD 0)

/-- Phase a. -/
def firstPhase (a : Fin s.phases → ℝ) : ℝ :=
  match s, a with
  | .sym, a => a (0 : Fin 1)
  | .asym, a => a (0 : Fin 3)

/-- The changes of angles and magnitudes in a solution of the equations. -/
def Rhs.polar (d : Rhs s) : Polar s := ⟨fun p => d.eta (.inl p), fun p => d.eta (.inr p)⟩

/-- `angle_offset`, lines 784-795. -/
def angleOffset (N : SeNet s) (M : Measured s) (x : Nat → Polar s) (d : Nat → Rhs s) : ℝ :=
  if hasAngle N.T.nBus M then 0 else firstPhase ((x N.slack).theta + (d N.slack).polar.theta)

open Classical in
/-- The multipliers after an iteration, lines 804-811. -/
noncomputable def newPhi (o : Option (PowerM s)) (phi tau : QV s) : QV s :=
  match o with
  | none => phi
  | some m => Sum.elim (fun p => if ∀ q, m.vp q = 0 then phi (.inl p) + tau (.inl p) else phi (.inl p))
      (fun p => if ∀ q, m.vq q = 0 then phi (.inr p) + tau (.inr p) else phi (.inr p))

/-- `iterate_unknown`, lines 797-811. -/
noncomputable def iterate (N : SeNet s) (M : Measured s) (st : State s) (d : Nat → Rhs s) : State s where
  x b := ⟨fun p => (st.x b).theta p + ((d b).polar.theta p - angleOffset N M st.x d), fun p => (st.x b).v p + (d b).polar.v p⟩
  phi b := newPhi (M.injection b) (st.phi b) (d b).tau

/-- The phasors of a state. -/
noncomputable def State.u (st : State s) (b : Nat) : CV s := phasor (st.x b)

/-- The memory that iterations use: `data_gain_`, `delta_x_rhs_` and `perm_`. -/
structure Memory (s : Symm) where
  sys : Sys s
  perms : List (BlockPerm ((s.phases + s.phases) + (s.phases + s.phases)))

/-- The body of the loop, lines 194-200. -/
noncomputable def step (N : SeNet s) (M : Measured s) (use : Bool) (mem : Memory s) (st : State s) : Except Err (State s × ℝ) :=
  match solve N use mem.perms (prepare N M st mem.sys) with
  | .error e => .error e
  | .ok d => .ok (iterate N M st d, deviation N.T.nBus st.u (iterate N M st d).u)

/-- The loop of lines 190-201 with `left` iterations left; `mem left` is what the memory holds then, which is left open here. -/
noncomputable def loop (N : SeNet s) (M : Measured s) (use : Bool) (mem : Nat → Memory s) (tol : ℝ) : Nat → State s → Except SeErr (State s)
  | 0, _ => .error .diverge
  | left + 1, st =>
    match step N M use (mem left) st with
    | .error e => .error (.sparse e)
    | .ok (st', dev) => if dev > tol then loop N M use mem tol left st' else .ok st'

/-- The initial angle of a bus, lines 241-245. -/
noncomputable def startAngle (T : Topo) (shift : Nat → ℝ) (M : Measured s) (b : Nat) : Option (VoltM s) → Fin s.phases → ℝ
  | some ⟨.phasor u, _⟩ => fun p => Complex.arg (u p)
  | _ => fun p => meanAngle T shift M p + shift b

/-- The initial magnitude of a bus, lines 246 and 255. -/
noncomputable def startMagnitude : Option (VoltM s) → Fin s.phases → ℝ
  | some m => magnitudeOf m.value
  | none => fun _ => 1

/-- `initialize_unknown` and `reset_unknown`, lines 232-262. -/
noncomputable def start (T : Topo) (shift : Nat → ℝ) (M : Measured s) : State s where
  x b := ⟨startAngle T shift M b (M.voltage b), startMagnitude (M.voltage b)⟩
  phi _ := 0

/-- `run_state_estimation` up to the voltages, lines 166-201. -/
noncomputable def run (N : SeNet s) (M : Measured s) (shift : Nat → ℝ) (tol : ℝ) (maxIter : Nat) (mem : Nat → Memory s) :
    Except SeErr (State s) :=
  match Observability.check N.T N.radial N.S (flags N.T M) with
  | .returns obs ill => loop N M (ill && obs) mem tol maxIter (start N.T shift M)
  | .throws r => .error (.observability r)

end PGM.NewtonSe
