/-!
# Model of the batch dispatcher

`P/job_dispatch.hpp`, with the worker (`single_thread_job`, `call_with`) as a transition system in which the workers
may interleave arbitrarily. A worker owns a copy of the adapter (`Adapter{base_adapter}`, line 101); the shared
state is the output buffer (one slot per scenario) and the vector of error messages.

Granularity: one transition is one call of an adapter operation (`setup`, `calculate`, `winddown`) together with the
exception handler that follows it. Timers and logging are not modelled.
-/

namespace PGM.Batch

/-- `n_threads`, `P/job_dispatch.hpp` lines 166-172; `hw` is `std::jthread::hardware_concurrency()`. -/
def nThreads (nScenarios : Int) (threading : Int) (hw : Nat) : Int :=
  if threading < 0 ∨ threading = 1 ∨ (threading = 0 ∧ hw < 2) then 1
  else min (if threading = 0 then (hw : Int) else threading) nScenarios

/-- The scenario loop `for (idx = start; idx < n; idx += stride)`, `P/job_dispatch.hpp` lines 131-134: the indices it
visits. With `stride = 0` the C++ loop would not end; `dispatch` below only calls it with a positive stride. -/
def strideLoop (start stride n : Nat) : List Nat :=
  if _h : start < n ∧ 0 < stride then start :: strideLoop (start + stride) stride n else []
termination_by n - start
decreasing_by omega

/-- `job_dispatch`, `P/job_dispatch.hpp` lines 142-160: the list of scenario indices of each worker. -/
def dispatch (nScenarios : Nat) (threading : Int) (hw : Nat) : List (List Nat) :=
  let nThread := (nThreads nScenarios threading hw).toNat
  if nThread = 1 then [strideLoop 0 1 nScenarios]
  else (List.range nThread).map (fun t => strideLoop t nThread nScenarios)

/-- A thrown C++ exception: derived from `std::exception`, or anything else. -/
inductive Exn where
  | std (what : String)
  | other
deriving DecidableEq, Repr

/-- `scenario_exception_handler`, `P/job_dispatch.hpp` lines 71-85: the message stored for an exception. -/
def Exn.message : Exn → String
  | .std w => w
  | .other => "unknown exception"

/-- The operations of the job adapter (`P/job_adapter.hpp` lines 90-139). `σ` is the state of the adapter (the model
copy with its caches), `ο` the content of an output slot. Each operation returns the state it leaves behind, also when
it throws. `run` returns what it wrote to the slot of its scenario, if anything. -/
structure Adapter (σ ο : Type) where
  base : σ
  setup : Nat → σ → σ × Option Exn
  run : Nat → σ → σ × Option ο × Option Exn
  winddown : σ → σ × Option Exn

/-- Where a worker is inside `call_with`, `P/job_dispatch.hpp` lines 189-202. -/
inductive Phase where
  | idle
  | ready (s : Nat)
  | ran (s : Nat)
  | failed (s : Nat)
deriving DecidableEq, Repr

/-- A worker: its adapter copy, the scenarios it still has to start and its program point. -/
structure Worker (σ : Type) where
  adapter : σ
  todo : List Nat
  phase : Phase

/-- State shared by the workers: output slots and messages (`exceptions`, line 58). -/
structure Shared (ο : Type) where
  out : Nat → ο
  msg : Nat → String

variable {σ ο : Type}

/-- Write an output slot. -/
def Shared.setOut (sh : Shared ο) (s : Nat) (o : Option ο) : Shared ο :=
  match o with
  | none => sh
  | some v => { sh with out := fun i => if i = s then v else sh.out i }

/-- `messages[scenario_idx] = ...`. -/
def Shared.setMsg (sh : Shared ο) (s : Nat) (m : String) : Shared ο :=
  { sh with msg := fun i => if i = s then m else sh.msg i }

/-- One transition of a worker: `P/job_dispatch.hpp` lines 131-134 and 189-202.
* `idle`: take the next scenario and call `setup_`;
* `ready`: call `run_`;
* `ran`: call `winddown_`;
* `failed` (an exception was handled): call `winddown_` again; if it throws, `recover_from_bad_` replaces the adapter by
  a copy of the base adapter. -/
def workerStep (A : Adapter σ ο) (w : Worker σ) (sh : Shared ο) : Worker σ × Shared ο :=
  match w.phase with
  | .idle =>
    match w.todo with
    | [] => (w, sh)
    | s :: rest =>
      match A.setup s w.adapter with
      | (a, none) => (⟨a, rest, .ready s⟩, sh)
      | (a, some e) => (⟨a, rest, .failed s⟩, sh.setMsg s e.message)
  | .ready s =>
    match A.run s w.adapter with
    | (a, o, none) => (⟨a, w.todo, .ran s⟩, sh.setOut s o)
    | (a, o, some e) => (⟨a, w.todo, .failed s⟩, (sh.setOut s o).setMsg s e.message)
  | .ran s =>
    match A.winddown w.adapter with
    | (a, none) => (⟨a, w.todo, .idle⟩, sh)
    | (a, some e) => (⟨a, w.todo, .failed s⟩, sh.setMsg s e.message)
  | .failed _ =>
    match A.winddown w.adapter with
    | (a, none) => (⟨a, w.todo, .idle⟩, sh)
    | (_, some _) => (⟨A.base, w.todo, .idle⟩, sh)

/-- All workers and the shared state. -/
structure Sys (σ ο : Type) where
  workers : List (Worker σ)
  sh : Shared ο

/-- The scheduler lets worker `i` make one transition (no effect for a worker that does not exist). -/
def sysStep (A : Adapter σ ο) (y : Sys σ ο) (i : Nat) : Sys σ ο :=
  match y.workers[i]? with
  | none => y
  | some w =>
    let r := workerStep A w y.sh
    ⟨y.workers.set i r.1, r.2⟩

/-- An execution under a schedule (the sequence of workers that make a transition). -/
def exec (A : Adapter σ ο) (y : Sys σ ο) (schedule : List Nat) : Sys σ ο := schedule.foldl (sysStep A) y

/-- Initial state: `exceptions(n_scenarios, "")` (line 58) and workers with a copy of the base adapter (lines
99-105). `buf` is the content of the output buffer before the call. -/
def start (A : Adapter σ ο) (n : Nat) (threading : Int) (hw : Nat) (buf : Nat → ο) : Sys σ ο :=
  ⟨(dispatch n threading hw).map (fun l => ⟨A.base, l, .idle⟩), ⟨buf, fun _ => ""⟩⟩

/-- All workers have left their loop, i.e. all threads can be joined (lines 156-158). -/
def Sys.finished (y : Sys σ ο) : Prop := ∀ w ∈ y.workers, w.todo = [] ∧ w.phase = .idle

/-- `handle_batch_exceptions`, `P/job_dispatch.hpp` lines 208-224: the (scenario, message) pairs of the
`BatchCalculationError`, or `none` if nothing is thrown. The combined text is not modelled. -/
def handleBatchExceptions (n : Nat) (msg : Nat → String) : Option (List (Nat × String)) :=
  let failed := ((List.range n).filter (fun s => msg s ≠ "")).map (fun s => (s, msg s))
  if failed = [] then none else some failed

/-- What a batch call reports: success, a batch error with the failed scenarios, or another exception. -/
inductive Report where
  | success
  | batchError (failed : List (Nat × String))
  | error (e : Exn)
deriving DecidableEq, Repr

/-- `batch_calculation`, `P/job_dispatch.hpp` lines 37-68, for a non-empty update dataset with `n` scenarios:
`cacheCalc` and `prepare` are the exceptions thrown by `cache_calculate` (line 55) and `prepare_job_dispatch` (line 60),
if any. The result is `none` as long as the schedule has not let every worker finish. -/
def batchCalculation (A : Adapter σ ο) (n : Nat) (threading : Int) (hw : Nat) (buf : Nat → ο)
    (cacheCalc prepare : Option Exn) (schedule : List Nat) : Option ((Nat → ο) × Report) :=
  if n = 0 then some (buf, .success)
  else match cacheCalc, prepare with
    | some e, _ => some (buf, .error e)
    | none, some e => some (buf, .error e)
    | none, none =>
      let y := exec A (start A n threading hw buf) schedule
      if y.workers.all (fun w => w.todo == [] && w.phase == .idle) then
        match handleBatchExceptions n y.sh.msg with
        | none => some (y.sh.out, .success)
        | some l => some (y.sh.out, .batchError l)
      else none

end PGM.Batch
