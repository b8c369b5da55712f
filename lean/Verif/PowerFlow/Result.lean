import Verif.YBus.Flow
import Verif.PowerFlow.Regulator
import Verif.Component.LoadGen
import Verif.Common.Sequence

/-!
# Power flow: linear equations and results

Prefix of all paths: `P/` = `/repo/power_grid_model_c/power_grid_model/include/power_grid_model/`. Model of
`P/math_solver/common_solver_functions.hpp` lines 33-160 and 383-446, of `P/math_solver/linear_pf_solver.hpp` lines 61-108 and of the
matrix and the right-hand side in `P/math_solver/iterative_current_pf_solver.hpp` lines 95-205.

Simplifications: exact complex numbers. Values have one entry (symmetric) or three (asymmetric), matrices accordingly. Vectors that
the code indexes by bus, source or load are functions. Groups per bus (C03) are the indices whose bus it is, in increasing
order. Division by zero (NaN in the code) is not modelled; the theorems assume non-zero divisors. The sparse solver is C16.
-/

namespace PGM.PowerFlow

open PGM.YBus PGM.Component

/-- `ComplexValue<sym>`. -/
abbrev CV (s : Symm) := Fin s.phases → ℂ

/-- `ComplexTensor<sym>`. -/
abbrev CM (s : Symm) := Matrix (Fin s.phases) (Fin s.phases) ℂ

/-- `dot` of a tensor and a value, `P/common/three_phase_tensor.hpp`. -/
noncomputable def dot (s : Symm) : CM s →+ CV s →+ CV s :=
  AddMonoidHom.mk' (fun m => AddMonoidHom.mk' (fun v => m.mulVec v) (Matrix.mulVec_add m))
    (fun m n => by ext v; simp [Matrix.add_mulVec])

/-- `ComplexValue<sym>{x}`: the value itself, or a positive-sequence system, `P/common/three_phase_tensor.hpp` lines 44-53. -/
noncomputable def spread (s : Symm) (x : ℂ) : CV s :=
  match s with
  | .sym => fun _ => x
  | .asym => (![x, x * a2, x * a] : Fin 3 → ℂ)

/-- `SourceCalcParam::y_ref`, `P/calculation_parameters.hpp` lines 219-225. -/
noncomputable def yRef (s : Symm) (y1 y0 : ℂ) : CM s :=
  match s with
  | .sym => fun _ _ => y1
  | .asym => (balancedMatrix ((2 * y1 + y0) / 3) ((y0 - y1) / 3) : Matrix (Fin 3) (Fin 3) ℂ)

/-- An island: topology, matrix structure and values, and the buses and parameters of sources and loads/generators. -/
structure PfNet (s : Symm) where
  T : Topo
  S : YBus.Structure
  y : YBus (CM s)
  sourceBus : List Nat
  loadBus : List Nat
  /-- `source_param`. -/
  y1 : Nat → ℂ
  y0 : Nat → ℂ

/-- `PowerFlowInput`: reference voltages and specified injections. -/
structure PfInput (s : Symm) where
  source : Nat → ℂ
  sInj : Nat → CV s

/-- The members of the group of a bus. -/
def onBus (l : List Nat) (bus : Nat) : List Nat := (List.range l.length).filter fun k => l[k]? == some bus

/-- `ApplianceSolverOutput`. -/
structure SI (s : Symm) where
  pow : CV s
  cur : CV s

/-- `BranchSolverOutput`. -/
structure BranchOut (s : Symm) where
  sF : CV s
  sT : CV s
  iF : CV s
  iT : CV s

/-- `SolverOutput`, `P/calculation_parameters.hpp` lines 338-350. -/
structure PfOutput (s : Symm) where
  u : Nat → CV s
  injection : Nat → CV s
  branch : List (BranchOut s)
  shunt : List (SI s)
  source : Nat → SI s
  load : Nat → SI s

variable {s : Symm}

/-! ## Results -/

/-- One load or generator, `calculate_load_gen_result`, lines 386-409. -/
noncomputable def loadStep (inp : PfInput s) (type : Nat → LoadType) (bus : Nat) (out : PfOutput s) (k : Nat) : PfOutput s :=
  let r := fun p => loadResult (type k) (inp.sInj k p) (out.u bus p)
  { out with load := Function.update out.load k ⟨fun p => (r p).1, fun p => (r p).2⟩ }

/-- Step 3 of `calculate_voltage_regulator_result`, lines 288-304, for one generator and its new power. -/
noncomputable def regulateStep (bus : Nat) (out : PfOutput s) (g : Nat × CV s) : PfOutput s :=
  { out with load := Function.update out.load g.1 ⟨g.2, star (g.2 / out.u bus)⟩ }

/-- The current of one of several sources in symmetric calculations, lines 79-102. -/
noncomputable def multipleSym (y1 uref : Nat → ℂ) (sources : List Nat) (it : ℂ) (k : Nat) : ℂ :=
  let yt := (sources.map y1).sum
  let zt := 1 / yt
  let iref := (sources.map fun j => uref j * y1 j).sum
  y1 k * zt * (uref k * yt - iref) + y1 k * zt * it

/-- The current of one of several sources in asymmetric calculations, lines 104-139. -/
noncomputable def multipleAsym (y1 y0 uref : Nat → ℂ) (sources : List Nat) (it : C3) (k : Nat) : C3 :=
  let yt0 := (sources.map y0).sum
  let yt1 := (sources.map y1).sum
  let yt2 := (sources.map y1).sum
  let iref := (sources.map fun j => uref j * y1 j).sum
  let it012 := symMatrixInv.mulVec it
  let i0 := y0 k / yt0 * it012 0
  let i1 := y1 k / yt1 * (uref k * yt1 - iref) + y1 k / yt1 * it012 1
  let i2 := y1 k / yt2 * it012 2
  symMatrix.mulVec ![i0, i1, i2]

/-- `calculate_multiple_source_result`, both overloads. -/
noncomputable def multipleSource (N : PfNet s) (inp : PfInput s) (sources : List Nat) (it : CV s) (k : Nat) : CV s :=
  match s, N, inp, it with
  | .sym, N, inp, it => fun p => multipleSym N.y1 inp.source sources (it p) k
  | .asym, N, inp, it => multipleAsym N.y1 N.y0 inp.source sources it k

/-- Setting the result of one source, lines 99-100, 136-137 and 153-154. -/
noncomputable def setSource (bus : Nat) (i : Nat → CV s) (out : PfOutput s) (k : Nat) : PfOutput s :=
  { out with source := Function.update out.source k ⟨out.u bus * star (i k), i k⟩ }

/-- `calculate_source_result`, lines 143-160. -/
noncomputable def sourceResult (N : PfNet s) (inp : PfInput s) (bus : Nat) (out : PfOutput s) : PfOutput s :=
  match onBus N.sourceBus bus with
  | [] => out
  | src :: rest =>
    let iLoad := ((onBus N.loadBus bus).map fun k => (out.load k).cur).sum
    let it := star (out.injection bus / out.u bus) - iLoad
    if rest = [] then setSource bus (fun _ => it) out src
    else (src :: rest).foldl (setSource bus (multipleSource N inp (src :: rest) it)) out

/-- One bus of `calculate_pf_result`, lines 439-444. `alloc` is the result of the allocation of reactive power to the regulated
generators of the bus (C21): generators with their new power. -/
noncomputable def pfBus (N : PfNet s) (inp : PfInput s) (type : Nat → LoadType)
    (alloc : Nat → PfOutput s → List (Nat × CV s)) (out : PfOutput s) (bus : Nat) : PfOutput s :=
  let out := (onBus N.loadBus bus).foldl (loadStep inp type bus) out
  let out := (alloc bus out).foldl (regulateStep bus) out
  sourceResult N inp bus out

/-- `calculate_branch_flow` with the powers, `P/math_solver/y_bus.hpp` lines 500-525. -/
noncomputable def branchOutput (N : PfNet s) (u : Nat → CV s) : List (BranchOut s) :=
  (N.T.branches.zip (branchFlow N.T N.y.param (dot s) u)).map fun b =>
    ⟨sideVoltage u b.1.1 * star b.2.1, sideVoltage u b.1.2 * star b.2.2, b.2.1, b.2.2⟩

/-- `calculate_shunt_flow` with the powers, `P/math_solver/y_bus.hpp` lines 528-546. -/
noncomputable def shuntOutput (N : PfNet s) (u : Nat → CV s) : List (SI s) :=
  (N.T.shuntBus.zip (shuntFlow N.T N.y.param (dot s) u)).map fun x => ⟨u x.1 * star x.2, x.2⟩

/-- `calculate_injection(u)`, `P/math_solver/y_bus.hpp` lines 482-496. -/
noncomputable def injection (N : PfNet s) (u : Nat → CV s) (bus : Nat) : CV s :=
  star (busCurrent N.S N.y (dot s) u bus) * u bus

/-- `calculate_pf_result`, lines 411-446. -/
noncomputable def pfResult (N : PfNet s) (inp : PfInput s) (type : Nat → LoadType)
    (alloc : Nat → PfOutput s → List (Nat × CV s)) (u : Nat → CV s) : PfOutput s :=
  (List.range N.T.nBus).foldl (pfBus N inp type alloc)
    { u := u, injection := injection N u, branch := branchOutput N u, shunt := shuntOutput N u
      source := fun _ => ⟨0, 0⟩, load := fun _ => ⟨0, 0⟩ }

/-! ## Matrices -/

/-- `copy_y_bus`, lines 68-77. -/
noncomputable def copyYBus (N : PfNet s) : List (CM s) :=
  N.S.mapLuYBus.map fun k => match k with
    | some k => N.y.admittance[k]?.getD 0
    | none => 0

/-- A matrix on the structure of the factorised matrix, and a right-hand side. -/
structure Lin (s : Symm) where
  mat : List (CM s)
  rhs : Nat → CV s

/-- `add_sources` of one source, lines 37-41, for the diagonal element. -/
noncomputable def addSourceDiag (N : PfNet s) (bus : Nat) (x : Lin s) (k : Nat) : Lin s :=
  let d := N.S.diagLu[bus]?.getD 0
  { x with mat := x.mat.set d (x.mat[d]?.getD 0 + yRef s (N.y1 k) (N.y0 k)) }

/-- The same for the right-hand side. -/
noncomputable def addSourceRhs (N : PfNet s) (inp : PfInput s) (bus : Nat) (x : Lin s) (k : Nat) : Lin s :=
  { x with rhs := Function.update x.rhs bus (x.rhs bus + dot s (yRef s (N.y1 k) (N.y0 k)) (spread s (inp.source k))) }

/-- `add_linear_loads` of one load, lines 47-50. -/
noncomputable def addLinearLoad (N : PfNet s) (inp : PfInput s) (bus : Nat) (x : Lin s) (k : Nat) : Lin s :=
  let d := N.S.diagLu[bus]?.getD 0
  { x with mat := x.mat.set d (x.mat[d]?.getD 0 + Matrix.diagonal (-(star (inp.sInj k)))) }

/-- One bus of `prepare_linear_matrix_and_rhs`, lines 58-65. -/
noncomputable def linearBus (N : PfNet s) (inp : PfInput s) (x : Lin s) (bus : Nat) : Lin s :=
  let x := (onBus N.loadBus bus).foldl (addLinearLoad N inp bus) x
  (onBus N.sourceBus bus).foldl (fun x k => addSourceRhs N inp bus (addSourceDiag N bus x k) k) x

/-- The equations of the linear method, `P/math_solver/linear_pf_solver.hpp` lines 73-76. -/
noncomputable def linearEquations (N : PfNet s) (inp : PfInput s) : Lin s :=
  (List.range N.T.nBus).foldl (linearBus N inp) ⟨copyYBus N, fun _ => 0⟩

/-- The matrix of the iterative current method, `P/math_solver/iterative_current_pf_solver.hpp` lines 104-115. -/
noncomputable def currentMatrix (N : PfNet s) : Lin s :=
  (List.range N.T.nBus).foldl (fun x bus => (onBus N.sourceBus bus).foldl (addSourceDiag N bus) x) ⟨copyYBus N, fun _ => 0⟩

/-- `add_loads` of one load, `P/math_solver/iterative_current_pf_solver.hpp` lines 175-199. -/
noncomputable def addLoadRhs (inp : PfInput s) (type : Nat → LoadType) (u : Nat → CV s) (bus : Nat) (x : Lin s) (k : Nat) : Lin s :=
  let i : CV s := match type k with
    | .constPq => star (inp.sInj k / u bus)
    | .constY => star (inp.sInj k) * u bus
    | .constI => star (inp.sInj k * (fun p => ((‖u bus p‖ : ℝ) : ℂ)) / u bus)
  { x with rhs := Function.update x.rhs bus (x.rhs bus + i) }

/-- `prepare_matrix_and_rhs`, `P/math_solver/iterative_current_pf_solver.hpp` lines 126-142: the equations of one iteration. -/
noncomputable def currentEquations (N : PfNet s) (inp : PfInput s) (type : Nat → LoadType) (u : Nat → CV s) : Lin s :=
  (List.range N.T.nBus).foldl (fun x bus =>
    let x := (onBus N.loadBus bus).foldl (addLoadRhs inp type u bus) x
    (onBus N.sourceBus bus).foldl (addSourceRhs N inp bus) x) (currentMatrix N)

end PGM.PowerFlow
