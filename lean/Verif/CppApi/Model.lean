import Verif.CApi.Model
import Mathlib.Logic.Function.Basic

/-!
# The objects and exceptions of the C++ API

`X/` is `power_grid_model_c/power_grid_model_cpp/include/power_grid_model_cpp/`: `X/handle.hpp`, `X/model.hpp`, and the pattern that all classes of `X/` share: an object owns a handle and an object of the
C API, and every member function calls one function of the C API with this handle.

Simplifications. The object of the C API is a value `μ`, and a function of the C API is a function on it that returns a value or throws an exception, which `call_with_catch` handles; null pointers to objects
are refused by the C API. Copying an object of the C API succeeds, and memory never runs out. Variables are numbered. Classes without copy constructor are the same without `copy` and `assign`.
-/

namespace PGM.CppApi

open PGM.CApi

/-- The exceptions of the C++ API, `X/handle.hpp` lines 19-53. -/
inductive Thrown where
  | regular (msg : String)
  | batch (msg : String) (failed : List (Nat × String))
  | serialization (msg : String)
  | generic (msg : String)
  deriving DecidableEq, Repr

/-- `failed_scenarios[i]` for all `i`, `X/handle.hpp` lines 81-90; the array of messages has to be as long as that of the scenarios. -/
def failedScenarios (h : CApi.Handle) : Option (List (Nat × String)) :=
  if h.errs.length < h.failed.length then none else some (h.failed.zip h.errs)

/-- `Handle::check_error`, `X/handle.hpp` lines 70-100; `none`: memory is read outside of an array. `PGM_error_code` of a null pointer is 0, `C/handle.cpp` lines 37-39. -/
def checkError (h : Option CApi.Handle) : Option (Except Thrown Unit × Option CApi.Handle) :=
  match h with
  | none => some (.ok (), none)
  | some h =>
    if h.errCode = 0 then some (.ok (), some h)
    else if h.errCode = 1 then some (.error (.regular h.errMsg), some {})
    else if h.errCode = 2 then (failedScenarios h).map fun l => (.error (.batch h.errMsg l), some {})
    else if h.errCode = 3 then some (.error (.serialization h.errMsg), some {})
    else some (.error (.generic h.errMsg), some {})

/-- Which exception handler a function of the C API uses: `C/handle.hpp` line 37, `C/model.cpp` lines 205-220, `C/serialization.cpp` line 40. -/
inductive Kind where
  | plain
  | calculation
  | serialization
  deriving DecidableEq, Repr

/-- The exception handler. -/
def handlerOf : Kind → Exn → CApi.Handle → CApi.Handle
  | .plain => defaultHandler 1
  | .calculation => batchHandler
  | .serialization => defaultHandler 3

/-- `Handle::call_with`, `X/handle.hpp` lines 102-111, for a function of the C API with outcome `r`. -/
def callWith {α : Type} (kind : Kind) (h : Option CApi.Handle) (r : Except Exn α) (empty : α) : Option (Except Thrown α × Option CApi.Handle) :=
  match callWithCatch h r (handlerOf kind) empty with
  | (a, h') =>
    match checkError h' with
    | none => none
    | some (.ok _, h'') => some (.ok a, h'')
    | some (.error t, h'') => some (.error t, h'')

/-- An object of a class of the C++ API: the members `handle_` and `model_`, which are null pointers (`none`) after a move; `X/model.hpp` lines 58-59, `X/handle.hpp` line 116. -/
structure Object (μ : Type) where
  handle : Option CApi.Handle
  object : Option μ

/-- The variables that exist. -/
abbrev Vars (μ : Type) := Nat → Option (Object μ)

/-- What a program does with variables. -/
inductive Op (μ ν : Type) where
  /-- Constructor of a new variable with the outcome of the function of the C API, `X/model.hpp` lines 19-20. -/
  | make (i : Nat) (kind : Kind) (r : Except Exn μ)
  /-- Copy constructor, line 21. -/
  | copy (i j : Nat)
  /-- Copy assignment, lines 22-27. -/
  | assign (i j : Nat)
  /-- Move constructor, line 28. -/
  | move (i j : Nat)
  /-- Move assignment, lines 29-35. -/
  | moveAssign (i j : Nat)
  /-- A member function, lines 41-55: what the function of the C API does with the object and what it returns. -/
  | call (i : Nat) (kind : Kind) (f : μ → μ × Except Exn ν)
  /-- Destructor, line 36. -/
  | destroy (i : Nat)

/-- What the caller sees. -/
inductive Seen (ν : Type) where
  | done
  | value (v : ν)
  | thrown (t : Thrown)

variable {μ ν : Type}

/-- `PGM_copy_model`, `C/model.cpp` lines 65-67: `safe_ptr_get` throws for a null pointer. -/
def copyModel (p : Option μ) : Except Exn (Option μ) :=
  match p with
  | none => .error (.std "Illegal operation: Received null pointer when not allowed\n")
  | some m => .ok (some m)

/-- One operation; `none`: undefined behaviour, or not a program (a variable that does not exist, or exists already). `empty` is the value-initialised result. -/
def step (empty : ν) (V : Vars μ) : Op μ ν → Option (Vars μ × Seen ν)
  | .make i kind r =>
    match V i with
    | some _ => none
    | none =>
      match callWith kind (some {}) (r.map some) none with
      | none => none
      | some (.ok p, h) => some (Function.update V i (some ⟨h, p⟩), .done)
      | some (.error t, _) => some (V, .thrown t)
  | .copy i j =>
    match V i, V j with
    | none, some o =>
      match callWith .plain (some {}) (copyModel o.object) none with
      | none => none
      | some (.ok p, h) => some (Function.update V i (some ⟨h, p⟩), .done)
      | some (.error t, _) => some (V, .thrown t)
    | _, _ => none
  | .assign i j =>
    match V i, V j with
    | some t, some o =>
      if i = j then some (V, .done)
      else
        match callWith .plain t.handle (copyModel o.object) none with
        | none => none
        | some (.ok p, h) => some (Function.update V i (some ⟨h, p⟩), .done)
        | some (.error x, h) => some (Function.update V i (some ⟨h, t.object⟩), .thrown x)
    | _, _ => none
  | .move i j =>
    match V i, V j with
    | none, some o => some (Function.update (Function.update V j (some ⟨none, none⟩)) i (some o), .done)
    | _, _ => none
  | .moveAssign i j =>
    match V i, V j with
    | some _, some o => if i = j then some (V, .done) else some (Function.update (Function.update V j (some ⟨none, none⟩)) i (some o), .done)
    | _, _ => none
  | .call i kind f =>
    match V i with
    | none => none
    | some o =>
      match o.object with
      | none =>
        match callWith kind o.handle (.error (.std "Illegal operation: Received null pointer when not allowed\n") : Except Exn ν) empty with
        | none => none
        | some (.ok v, h) => some (Function.update V i (some ⟨h, none⟩), .value v)
        | some (.error t, h) => some (Function.update V i (some ⟨h, none⟩), .thrown t)
      | some m =>
        match callWith kind o.handle (f m).2 empty with
        | none => none
        | some (.ok v, h) => some (Function.update V i (some ⟨h, some (f m).1⟩), .value v)
        | some (.error t, h) => some (Function.update V i (some ⟨h, some (f m).1⟩), .thrown t)
  | .destroy i =>
    match V i with
    | none => none
    | some _ => some (Function.update V i none, .done)

/-- A program and what is seen of it. -/
def run (empty : ν) : Vars μ → List (Op μ ν) → Option (Vars μ × List (Seen ν))
  | V, [] => some (V, [])
  | V, op :: ops =>
    match step empty V op with
    | none => none
    | some (V', s) => (run empty V' ops).map fun r => (r.1, s :: r.2)

end PGM.CppApi
