import Mathlib.Data.List.Basic
import Mathlib.Algebra.Order.Ring.Defs
import Mathlib.Algebra.BigOperators.Group.List.Basic

/-!
# Information about a calculation: loggers of threads and timers

Prefix of all paths: `P/` = `/repo/power_grid_model_c/power_grid_model/include/power_grid_model/`. Model of `P/common/calculation_info.hpp`, `P/common/multi_threaded_logging.hpp` and `P/common/timer.hpp`, with
the use in `P/job_dispatch.hpp` lines 87-135.

Simplifications. Numbers are exact. A thread works on its own logger only, and the merge into the common logger holds a mutex, so a run of several threads is an interleaving of their operations. Events
without a value and texts are ignored by `CalculationInfo` and left out. Time is not modelled: a measurement of a timer has a number instead of a duration.
-/

namespace PGM.Logging

/-! ## The report -/

/-- `LogEvent`, `P/common/logging.hpp` lines 15-46. -/
inductive Event where
  | unknown | total | buildModel | totalSingle | totalBatch | copyModel | updateModel | restoreModel | scenarioException | recoverFromBad | prepare | createMathSolver
  | mathCalculation | mathSolver | initializeCalculation | preprocessMeasured | prepareMatrix | prepareMatrixPrefactorized | prepareMatrices | initializeVoltages | calculateRhs | prepareLhsRhs
  | solveSparse | solveSparsePrefactorized | iterateUnknown | calculateMathResult | produceOutput | iterativePfMaxIter | maxIter
  deriving DecidableEq

/-- All events. -/
def events : List Event :=
  [.unknown, .total, .buildModel, .totalSingle, .totalBatch, .copyModel, .updateModel, .restoreModel, .scenarioException, .recoverFromBad, .prepare, .createMathSolver, .mathCalculation, .mathSolver,
   .initializeCalculation, .preprocessMeasured, .prepareMatrix, .prepareMatrixPrefactorized, .prepareMatrices, .initializeVoltages, .calculateRhs, .prepareLhsRhs, .solveSparse,
   .solveSparsePrefactorized, .iterateUnknown, .calculateMathResult, .produceOutput, .iterativePfMaxIter, .maxIter]

variable {R : Type} [Ring R] [LinearOrder R]

/-- The map `data_` of `CalculationInfo`. -/
abbrev Data (R : Type) := Event → Option R

/-- `log_impl` with `accumulate_log` and `maximize_log`, `P/common/calculation_info.hpp` lines 45-89. `operator[]` inserts 0 for a missing key. -/
def log (d : Data R) (tag : Event) (v : R) : Data R :=
  match tag with
  | .unknown => d
  | .iterativePfMaxIter | .maxIter => Function.update d tag (some (max v ((d tag).getD 0)))
  | _ => Function.update d tag (some ((d tag).getD 0 + v))

/-- One entry of `merge_into`. -/
def mergeStep (src : Data R) (dst : Data R) (tag : Event) : Data R :=
  match src tag with
  | none => dst
  | some v => log dst tag v

/-- `merge_into` into another object, lines 95-103: every entry of the source is logged. -/
def merge (src dst : Data R) : Data R := events.foldl (mergeStep src) dst

/-- Nothing logged. -/
def empty : Data R := fun _ => none

/-! ## Threads -/

/-- What the threads do, in the order in which it happens. Child loggers have a number. -/
inductive Op (R : Type) where
  /-- `create_child`, `P/common/multi_threaded_logging.hpp` line 67. -/
  | create (i : Nat)
  /-- `log` of a child. -/
  | child (i : Nat) (tag : Event) (v : R)
  /-- `log` of the common logger, lines 71-74, which happens while no child is destroyed. -/
  | main (tag : Event) (v : R)
  /-- The destructor of a child, lines 46-52, with `sync`, lines 84-89. -/
  | destroy (i : Nat)
  /-- The copy constructor of `ThreadLogger`, line 29: child `j` is a copy of child `i`. -/
  | copy (i j : Nat)

/-- The common logger and the children that exist. -/
structure State (R : Type) where
  main : Data R
  children : List (Nat × Data R)

/-- One operation; `none` if the child does not exist, or exists already. -/
def step (s : State R) : Op R → Option (State R)
  | .create i => if s.children.lookup i = none then some { s with children := (i, empty) :: s.children } else none
  | .child i tag v =>
    match s.children.lookup i with
    | none => none
    | some d => some { s with children := (i, log d tag v) :: s.children.filter fun c => c.1 ≠ i }
  | .main tag v => some { s with main := log s.main tag v }
  | .destroy i =>
    match s.children.lookup i with
    | none => none
    | some d => some ⟨merge d s.main, s.children.filter fun c => c.1 ≠ i⟩
  | .copy i j =>
    match s.children.lookup i with
    | none => none
    | some d => if s.children.lookup j = none then some { s with children := (j, d) :: s.children } else none

/-- A run. -/
def run : State R → List (Op R) → Option (State R)
  | s, [] => some s
  | s, o :: os => (step s o).bind fun s' => run s' os

/-! ## Timers -/

/-- `Timer`: the number of the measurement it has still to log, `none` for `log_ == nullptr`. -/
abbrev Timers := List (Nat × Option Nat)

/-- What happens to timers. -/
inductive TOp where
  /-- Construction with a logger, `P/common/timer.hpp` line 25, for measurement `m`. -/
  | start (i m : Nat)
  /-- Default construction, line 24. -/
  | idle (i : Nat)
  /-- Construction of `j` from the moved `i`, lines 28-29. -/
  | moved (i j : Nat)
  /-- `j = std::move(i)`, lines 32-46. -/
  | assign (i j : Nat)
  /-- `stop()`, lines 54-61. -/
  | stop (i : Nat)
  /-- The destructor, lines 48-52. -/
  | destroy (i : Nat)

/-- The timers that exist and the measurements that were logged. -/
structure TState where
  timers : Timers
  logged : List Nat

/-- `stop()`, lines 54-61. -/
def stopped (logged : List Nat) : Option Nat → List Nat
  | none => logged
  | some m => m :: logged

/-- Write timer `i`. -/
def setTimer (t : Timers) (i : Nat) (v : Option Nat) : Timers := (i, v) :: t.filter fun c => c.1 ≠ i

/-- One operation; `none` if a timer does not exist, or exists already. -/
def tstep (s : TState) : TOp → Option TState
  | .start i m => if s.timers.lookup i = none then some ⟨(i, some m) :: s.timers, s.logged⟩ else none
  | .idle i => if s.timers.lookup i = none then some ⟨(i, none) :: s.timers, s.logged⟩ else none
  | .moved i j =>
    match s.timers.lookup i with
    | none => none
    | some v => if s.timers.lookup j = none then some ⟨(j, v) :: setTimer s.timers i none, s.logged⟩ else none
  | .assign i j =>
    match s.timers.lookup j with
    | none => none
    | some w =>
      match (setTimer s.timers j none).lookup i with
      | none => none
      | some v => some ⟨setTimer (setTimer (setTimer s.timers j none) j v) i none, stopped s.logged w⟩
  | .stop i =>
    match s.timers.lookup i with
    | none => none
    | some v => some ⟨setTimer s.timers i none, stopped s.logged v⟩
  | .destroy i =>
    match s.timers.lookup i with
    | none => none
    | some v => some ⟨s.timers.filter fun c => c.1 ≠ i, stopped s.logged v⟩

/-- A run. -/
def trun : TState → List TOp → Option TState
  | s, [] => some s
  | s, o :: os => (tstep s o).bind fun s' => trun s' os

end PGM.Logging
