import Verif.PowerFlow.EndToEnd

/-!
# Short-circuit calculation: model (C20)

Prefix of all paths: `P/` = `/repo/power_grid_model_c/power_grid_model/include/power_grid_model/`. Model of
`P/math_solver/short_circuit_solver.hpp` lines 36-447, on the islands, matrices, sources and sparse solver of `Verif.PowerFlow`,
`Verif.YBus` and `Verif.Lu`.

Simplifications: exact complex numbers; an infinite admittance is `none`; vectors that the code indexes by bus, source or fault are
functions. The loads of an island are not used.
-/

namespace PGM.ShortCircuit

open PGM.YBus PGM.Component PGM.PowerFlow PGM.Lu

variable {s : Symm}

/-- `FaultCalcParam`, `P/calculation_parameters.hpp`: type and phase with the numbers of `P/common/enum.hpp` lines 89-107, and the admittance;
`none` is infinity, `component/fault.hpp` lines 58-62. -/
structure FaultParam where
  type : Int
  phase : Int
  y : Option ℂ

/-- `ShortCircuitInput`: the bus of every fault, the faults, and the reference voltages of the sources. -/
structure ScInput where
  faultBus : List Nat
  faults : List FaultParam
  source : Nat → ℂ

/-- `ShortCircuitSolverOutput`, `P/calculation_parameters.hpp` lines 352-361. -/
structure ScOut (s : Symm) where
  u : Nat → CV s
  fault : Nat → CV s
  source : Nat → CV s
  branch : List (CV s × CV s)
  shunt : List (CV s)

/-- The type of the faults with the indices `phase_1` and `phase_2`. -/
inductive Kind (n : Nat) where
  | three
  | single (p : Fin n)
  | two (p q : Fin n)
  | ground (p q : Fin n)
  deriving DecidableEq

inductive ScErr where
  /-- `InvalidShortCircuitPhaseOrType`. -/
  | invalid
  /-- Indexing a phase with -1. -/
  | undefined
  /-- The sparse solver. -/
  | solver (e : Lu.Err)

/-! ## Type and phase -/

/-- `set_phase_index`, lines 375-416; `none` is -1. -/
def phaseIndex (phase : Int) : Option (Fin 3) × Option (Fin 3) :=
  if phase = 1 then (some 0, none)
  else if phase = 2 then (some 1, none)
  else if phase = 3 then (some 2, none)
  else if phase = 4 then (some 0, some 1)
  else if phase = 5 then (some 0, some 2)
  else if phase = 6 then (some 1, some 2)
  else (none, none)

/-- What the tests of `fault_type` (lines 127-180, 190-228) select, with the phases. A symmetric calculation only treats three-phase faults,
`if constexpr`. -/
def kindOf (s : Symm) (type phase : Int) : Option (Kind s.phases) :=
  match s with
  | .sym => if type = 0 then some .three else none
  | .asym =>
    if type = 0 then some .three
    else if type = 1 then (phaseIndex phase).1.map Kind.single
    else if type = 2 then
      match phaseIndex phase with
      | (some p, some q) => some (Kind.two (n := 3) p q)
      | _ => none
    else if type = 3 then
      match phaseIndex phase with
      | (some p, some q) => some (Kind.ground (n := 3) p q)
      | _ => none
    else none

/-- `all_fault_type_phase_equal`, lines 437-446. -/
def allEqual (l : List FaultParam) : Bool :=
  match l with
  | [] => true
  | f :: _ => l.all fun g => g.type == f.type && g.phase == f.phase

/-- `check_input_valid`, lines 421-435: -128 is NaN, -1 the default phase. -/
def inputValid (l : List FaultParam) : Bool :=
  match l with
  | [] => true
  | f :: _ => allEqual l && !(f.type == -128 || f.phase == -1 || f.phase == -128)

/-! ## Blocks -/

/-- `m(i, j) = x`. -/
def setEntry {n : Nat} (i j : Fin n) (x : ℂ) (m : Matrix (Fin n) (Fin n) ℂ) : Matrix (Fin n) (Fin n) ℂ :=
  fun a b => if a = i ∧ b = j then x else m a b

/-- `m(i, j) += x`. -/
def addEntry {n : Nat} (i j : Fin n) (x : ℂ) (m : Matrix (Fin n) (Fin n) ℂ) : Matrix (Fin n) (Fin n) ℂ :=
  fun a b => if a = i ∧ b = j then m a b + x else m a b

/-- `m.col(p) = 0`. -/
def zeroCol {n : Nat} (p : Fin n) (m : Matrix (Fin n) (Fin n) ℂ) : Matrix (Fin n) (Fin n) ℂ :=
  fun a b => if b = p then 0 else m a b

/-- `m.col(p) += m.col(q)`. -/
def addCol {n : Nat} (p q : Fin n) (m : Matrix (Fin n) (Fin n) ℂ) : Matrix (Fin n) (Fin n) ℂ :=
  fun a b => if b = p then m a b + m a q else m a b

/-! ## Equations -/

/-- The loop over the blocks of the column of a bus, lines 128-133, 140-145, 150-157, 171-178, 211-218: for every entry of the row of the bus
the transposed entry is changed. -/
noncomputable def columnLoop (N : PfNet s) (bus : Nat) (f : CM s → CM s) (mat : List (CM s)) : List (CM s) :=
  (List.range' (N.S.rowIndptrLu[bus]?.getD 0) (N.S.rowIndptrLu[bus + 1]?.getD 0 - N.S.rowIndptrLu[bus]?.getD 0)).foldl
    (fun m k => m.set (N.S.transposeEntry[k]?.getD 0) (f (m[N.S.transposeEntry[k]?.getD 0]?.getD 0))) mat

/-- A change of the diagonal block of a bus, `diagonal_element` of lines 91-92. -/
noncomputable def onDiag (N : PfNet s) (bus : Nat) (f : CM s → CM s) (mat : List (CM s)) : List (CM s) :=
  mat.set (N.S.diagLu[bus]?.getD 0) (f (mat[N.S.diagLu[bus]?.getD 0]?.getD 0))

/-- `add_fault_with_infinite_impedance`, lines 121-186. -/
noncomputable def addSolid (N : PfNet s) (kind : Kind s.phases) (bus : Nat) (x : Lin s) : Lin s :=
  match kind with
  | .three =>
    ⟨onDiag N bus (fun _ => Matrix.diagonal fun _ => -1) (columnLoop N bus (fun _ => 0) x.mat), Function.update x.rhs bus 0⟩
  | .single p =>
    ⟨onDiag N bus (setEntry p p (-1)) (columnLoop N bus (zeroCol p) x.mat),
      Function.update x.rhs bus (Function.update (x.rhs bus) p 0)⟩
  | .two p q =>
    ⟨onDiag N bus (fun m => setEntry q q 1 (setEntry p q (-1) m)) (columnLoop N bus (fun m => zeroCol q (addCol p q m)) x.mat),
      Function.update x.rhs bus (Function.update (Function.update (x.rhs bus) q (x.rhs bus q + x.rhs bus p)) p 0)⟩
  | .ground p q =>
    ⟨onDiag N bus (fun m => setEntry q q (-1) (setEntry p p (-1) m)) (columnLoop N bus (fun m => zeroCol q (zeroCol p m)) x.mat),
      Function.update x.rhs bus (Function.update (Function.update (x.rhs bus) p 0) q 0)⟩

/-- `add_fault`, lines 188-234. -/
noncomputable def addFinite (N : PfNet s) (kind : Kind s.phases) (bus : Nat) (y : ℂ) (x : Lin s) : Lin s :=
  match kind with
  | .three => ⟨onDiag N bus (fun m => m + Matrix.diagonal fun _ => y) x.mat, x.rhs⟩
  | .single p => ⟨onDiag N bus (addEntry p p y) x.mat, x.rhs⟩
  | .two p q =>
    ⟨onDiag N bus (fun m => addEntry q p (-y) (addEntry p q (-y) (addEntry q q y (addEntry p p y m)))) x.mat, x.rhs⟩
  | .ground p q =>
    ⟨onDiag N bus (fun m => addEntry q p y (setEntry q q 1 (setEntry p q (-1) m)))
        (columnLoop N bus (fun m => zeroCol q (addCol p q m)) x.mat),
      Function.update x.rhs bus (Function.update (Function.update (x.rhs bus) q (x.rhs bus q + x.rhs bus p)) p 0)⟩

/-- `add_faults`, lines 102-119, with the counter of the bus: the loop stops at the first infinite admittance. -/
noncomputable def addFaults (N : PfNet s) (y : Nat → Option ℂ) (kind : Kind s.phases) (bus : Nat) : List Nat → Lin s → Nat → Lin s × Nat
  | [], x, cnt => (x, cnt)
  | k :: ks, x, cnt =>
    match y k with
    | none => (addSolid N kind bus x, cnt + 1)
    | some z => addFaults N y kind bus ks (addFinite N kind bus z x) cnt

/-- `input.faults[k].y_fault`. -/
def admittance (inp : ScInput) (k : Nat) : Option ℂ := (inp.faults[k]?.getD ⟨0, 0, some 0⟩).y

/-- The sources of a bus, `detail::add_sources`, `P/math_solver/common_solver_functions.hpp` lines 33-44, line 96 here. -/
noncomputable def addSources (N : PfNet s) (inp : ScInput) (bus : Nat) (x : Lin s) : Lin s :=
  (onBus N.sourceBus bus).foldl (fun x k => addSourceRhs N ⟨inp.source, fun _ => 0⟩ bus (addSourceDiag N bus x k) k) x

/-- One bus of `prepare_matrix_and_rhs`, lines 90-99. -/
noncomputable def equationBus (N : PfNet s) (inp : ScInput) (kind : Kind s.phases) (x : Lin s × (Nat → Nat)) (bus : Nat) :
    Lin s × (Nat → Nat) :=
  let r := addFaults N (admittance inp) kind bus (onBus inp.faultBus bus) (addSources N inp bus x.1) (x.2 bus)
  (r.1, Function.update x.2 bus r.2)

/-- `copy_y_bus` and `prepare_matrix_and_rhs`, lines 62-64 and 83-100: the equations and the counters. -/
noncomputable def equations (N : PfNet s) (inp : ScInput) (kind : Kind s.phases) : Lin s × (Nat → Nat) :=
  (List.range N.T.nBus).foldl (equationBus N inp kind) (⟨copyYBus N, fun _ => 0⟩, fun _ => 0)

/-! ## Results -/

/-- `output.fault[k].i_fault = i`. -/
noncomputable def setFault (k : Nat) (i : CV s) (out : ScOut s) : ScOut s := { out with fault := Function.update out.fault k i }

/-- `output.u_bus[bus] = u`. -/
noncomputable def setVoltage (bus : Nat) (u : CV s) (out : ScOut s) : ScOut s := { out with u := Function.update out.u bus u }

/-- The first loop over the faults, solid faults: lines 253-279. -/
noncomputable def firstSolid (kind : Kind s.phases) (cnt : ℂ) (bus : Nat) (x : CV s) (out : ScOut s) (k : Nat) : ScOut s :=
  match kind with
  | .three => setVoltage bus 0 (setFault k (fun p => -(x p) / cnt) out)
  | .single p => setVoltage bus (Function.update (out.u bus) p 0) (setFault k (Function.update (out.fault k) p (-(x p) / cnt)) out)
  | .two p q =>
    setVoltage bus (Function.update (out.u bus) q (out.u bus p))
      (setFault k (Function.update (Function.update (out.fault k) p (-(x q) / cnt)) q (-(-(x q) / cnt))) out)
  | .ground p q =>
    setVoltage bus (Function.update (Function.update (out.u bus) p 0) q 0)
      (setFault k (Function.update (Function.update (out.fault k) p (-(x p) / cnt)) q (-(x q) / cnt)) out)

/-- The first loop over the faults, finite admittances: lines 287-304. -/
noncomputable def firstFinite (kind : Kind s.phases) (y : ℂ) (bus : Nat) (x : CV s) (out : ScOut s) (k : Nat) : ScOut s :=
  match kind with
  | .three => setFault k (fun p => y * x p) out
  | .single p => setFault k (Function.update (out.fault k) p (y * x p)) out
  | .two p q => setFault k (Function.update (Function.update (out.fault k) p (y * x p - y * x q)) q (y * x q - y * x p)) out
  | .ground p q =>
    setVoltage bus (Function.update (out.u bus) q (out.u bus p))
      (setFault k (Function.update (Function.update (out.fault k) p (-(x q))) q (-(-(x q)) + y * x p)) out)

/-- One fault of the first loop, lines 248-306. -/
noncomputable def firstStep (y : Nat → Option ℂ) (kind : Kind s.phases) (cnt : Nat) (bus : Nat) (x : CV s) (out : ScOut s) (k : Nat) : ScOut s :=
  match y k with
  | none => firstSolid kind cnt bus x out k
  | some z => if 0 < cnt then out else firstFinite kind z bus x out k

/-- One source, lines 310-318: the results with `i_source_bus` and `i_source_inject`. -/
noncomputable def sourceStep (N : PfNet s) (inp : ScInput) (bus : Nat) (st : ScOut s × CV s × CV s) (k : Nat) : ScOut s × CV s × CV s :=
  let inject := dot s (yRef s (N.y1 k) (N.y0 k)) (spread s (inp.source k))
  let i := inject - dot s (yRef s (N.y1 k) (N.y0 k)) (st.1.u bus)
  ({ st.1 with source := Function.update st.1.source k i }, st.2.1 + i, st.2.2 + inject)

/-- The second loop over the faults, solid faults: lines 326-351. -/
noncomputable def secondSolid (kind : Kind s.phases) (cnt : ℂ) (iBus iInject : CV s) (out : ScOut s) (k : Nat) : ScOut s :=
  match kind with
  | .three => setFault k (fun p => out.fault k p + iBus p / cnt) out
  | .single p => setFault k (Function.update (out.fault k) p (out.fault k p + iBus p / cnt)) out
  | .two p q =>
    setFault k (Function.update (Function.update (out.fault k) p (out.fault k p + iInject p / cnt)) q (out.fault k q - iInject p / cnt)) out
  | .ground p q => setFault k (Function.update (Function.update (out.fault k) p (out.fault k p + iBus p)) q (out.fault k q + iBus q)) out

/-- One fault of the second loop, lines 322-370; `n` is the number of faults at the bus. -/
noncomputable def secondStep (y : Nat → Option ℂ) (kind : Kind s.phases) (cnt n : Nat) (iBus iInject : CV s) (out : ScOut s) (k : Nat) : ScOut s :=
  match y k with
  | none => secondSolid kind cnt iBus iInject out k
  | some _ =>
    match kind with
    | .ground p q =>
      if cnt = 0 then
        setFault k (Function.update (Function.update (out.fault k) p (out.fault k p + iInject p / n)) q (out.fault k q - iInject p / n)) out
      else out
    | _ => out

/-- One bus of `calculate_result`, lines 242-371. -/
noncomputable def resultBus (N : PfNet s) (inp : ScInput) (kind : Kind s.phases) (cnt : Nat → Nat) (out : ScOut s) (bus : Nat) : ScOut s :=
  let faults := onBus inp.faultBus bus
  let o1 := faults.foldl (firstStep (admittance inp) kind (cnt bus) bus (out.u bus)) out
  let o2 := (onBus N.sourceBus bus).foldl (sourceStep N inp bus) (o1, 0, 0)
  faults.foldl (secondStep (admittance inp) kind (cnt bus) faults.length o2.2.1 o2.2.2) o2.1

/-- `calculate_result`, lines 236-373, on the solution of the equations. -/
noncomputable def results (N : PfNet s) (inp : ScInput) (kind : Kind s.phases) (cnt : Nat → Nat) (x : Nat → CV s) : ScOut s :=
  let out := (List.range N.T.nBus).foldl (resultBus N inp kind cnt) ⟨x, fun _ => 0, fun _ => 0, [], []⟩
  { out with branch := branchFlow N.T N.y.param (dot s) out.u, shunt := shuntFlow N.T N.y.param (dot s) out.u }

/-- The case of the first fault, lines 52-60; without faults the type and phase are NaN, which selects none of the cases; there the kind makes
no difference. -/
def selected (s : Symm) (l : List FaultParam) : Option (Kind s.phases) :=
  match l with
  | [] => some .three
  | f :: _ => kindOf s f.type f.phase

/-- `run_short_circuit`, lines 44-71. `perms` is what the permutations were before. -/
noncomputable def shortCircuit (N : PfNet s) (inp : ScInput) (perms : List (BlockPerm s.phases)) : Except ScErr (ScOut s) :=
  if inputValid inp.faults = false then .error .invalid
  else
    match selected s inp.faults with
    | none => .error .undefined
    | some kind =>
      match factorizeAndSolve (luPattern N.S) false (equations N inp kind).1.mat perms (toVec N (equations N inp kind).1.rhs) with
      | .error e => .error (.solver e)
      | .ok x => .ok (results N inp kind (equations N inp kind).2 fun b => x[b]?.getD 0)

end PGM.ShortCircuit
