/-!
# Model of the error handle and of multi-dimensional batches in the C API

`C/handle.hpp`, `C/handle.cpp`, `C/model.cpp`, `C/serialization.cpp`.
-/

namespace PGM.CApi

/-- An exception at the API boundary: a `BatchCalculationError` with its failed scenarios and messages, another
`std::exception`, or something else. -/
inductive Exn where
  | batch (msg : String) (failed : List Nat) (errs : List String)
  | std (msg : String)
  | other
deriving DecidableEq, Repr

/-- `PGM_Handle`, `C/handle.hpp` lines 20-27 (error codes: 0 no error, 1 regular, 2 batch, 3 serialisation). -/
structure Handle where
  errCode : Nat := 0
  errMsg : String := ""
  failed : List Nat := []
  errs : List String := []
deriving DecidableEq, Repr

/-- `handle_regular_error`, `C/handle.hpp` lines 51-58 (without the optional extra message). -/
def handleRegular (h : Handle) (msg : String) (code : Nat) : Handle := { h with errCode := code, errMsg := msg }

/-- `handle_unkown_error`, `C/handle.hpp` lines 60-63. -/
def handleUnknown (h : Handle) : Handle := { h with errCode := 1, errMsg := "Unknown error!\n" }

/-- `DefaultExceptionHandler::handle_all_errors`, `C/handle.hpp` lines 39-49, with code 1 (`operator()`, line 37) or 3
(`SerializationExceptionHandler`, `C/serialization.cpp` line 40). -/
def defaultHandler (code : Nat) (e : Exn) (h : Handle) : Handle :=
  match e with
  | .batch m _ _ => handleRegular h m code
  | .std m => handleRegular h m code
  | .other => handleUnknown h

/-- `BatchExceptionHandler`, `C/model.cpp` lines 205-220. -/
def batchHandler (e : Exn) (h : Handle) : Handle :=
  match e with
  | .batch m f es => { handleRegular h m 2 with failed := f, errs := es }
  | .std m => handleRegular h m 1
  | .other => handleUnknown h

/-- `MDBatchExceptionHandler`, `C/model.cpp` lines 230-264. For an exception that is not a batch error the appended
scenario numbers are `0 .. stride-1`, without the offset (line 254). -/
def mdHandler (offset stride : Nat) (e : Exn) (h : Handle) : Handle :=
  match e with
  | .batch m f es =>
    let h := handleRegular h m 2
    { h with failed := h.failed ++ f.map (· + offset), errs := h.errs ++ es }
  | .std m =>
    let h := handleRegular h m 2
    { h with failed := h.failed ++ List.range stride, errs := h.errs ++ List.replicate stride m }
  | .other => handleUnknown h

/-- `call_with_catch`, `C/handle.hpp` lines 70-89; the handle may be a null pointer. Returns the value handed to the
caller and the handle afterwards. `empty` is the value-initialised return value. -/
def callWithCatch {α : Type} (h : Option Handle) (f : Except Exn α) (handler : Exn → Handle → Handle) (empty : α) :
    α × Option Handle :=
  let cleared := h.map (fun _ => ({} : Handle))
  match f with
  | .ok a => (a, cleared)
  | .error e => (empty, cleared.map (handler e))

/-! ## Multi-dimensional batches -/

/-- The operations a calculation consists of. `D` is a batch dimension (a `ConstDataset`), `μ` the model, `ο` an output
slot.
* `size d`: `batch_size()`;
* `upd d i m`: permanent update of a copy of `m` with scenario `i` of `d`;
* `batch d m`: `calculate_single_batch_dimension_impl` with dataset `d`: what is written to slot `j` (if anything) and
  the exception thrown, if any;
* `once m`: the same without a batch dataset. -/
structure Ops (D μ ο : Type) where
  size : D → Nat
  upd : D → Nat → μ → Except Exn μ
  batch : D → μ → (Nat → Option ο) × Option Exn
  once : μ → Option ο × Option Exn

variable {D μ ο : Type}

/-- `get_stride_size` of the dataset before `rest`, `C/model.cpp` lines 277-287: product of the sizes of the following
dimensions. -/
def strideSize (ops : Ops D μ ο) (rest : List D) : Nat := rest.foldl (fun s d => s * ops.size d) 1

/-- Write the results of a one-dimensional batch of size `n` into the slice of the output that starts at `off`
(`get_slice_scenario`, `P/auxiliary/dataset.hpp`). -/
def writeSlice (off n : Nat) (r : Nat → Option ο) (buf : Nat → ο) : Nat → ο :=
  fun k => if off ≤ k ∧ k < off + n then (r (k - off)).getD (buf k) else buf k

/-- One iteration `i` of the loop over the first dimension, `C/model.cpp` lines 307-328. `recur` is the recursive call
on the updated copy of the model with the sliced output. `call_with_catch` clears the handle first, so the handle of
the previous iterations is dropped. -/
def outerStep (ops : Ops D μ ο) (d : D) (stride : Nat) (m : μ) (off : Nat)
    (recur : μ → Nat → (Nat → ο) → (Nat → ο) × Except Exn Unit) (st : (Nat → ο) × Handle) (i : Nat) :
    (Nat → ο) × Handle :=
  let r : (Nat → ο) × Except Exn Unit :=
    match ops.upd d i m with
    | .error e => (st.1, .error e)
    | .ok m' => recur m' (off + i * stride) st.1
  match (callWithCatch (some st.2) r.2 (mdHandler (i * stride) stride) ()).2 with
  | some h => (r.1, h)
  | none => (r.1, st.2)

/-- `calculate_multi_dimensional_impl`, `C/model.cpp` lines 290-334, on the list of batch dimensions (the
`get_next_cartesian_product_dimension` chain). `off` is the position of the output slice in the whole buffer. -/
def calcMD (ops : Ops D μ ο) : List D → μ → Nat → (Nat → ο) → (Nat → ο) × Except Exn Unit
  | [], m, off, buf =>
    let r := ops.once m
    (writeSlice off 1 (fun _ => r.1) buf, match r.2 with | none => .ok () | some e => .error e)
  | [d], m, off, buf =>
    let r := ops.batch d m
    (writeSlice off (ops.size d) r.1 buf, match r.2 with | none => .ok () | some e => .error e)
  | d :: d2 :: rest, m, off, buf =>
    let stride := strideSize ops (d2 :: rest)
    let r := (List.range (ops.size d)).foldl
      (outerStep ops d stride m off (fun m' off' b => calcMD ops (d2 :: rest) m' off' b)) (buf, {})
    (r.1, if r.2.errCode ≠ 0 then .error (.batch r.2.errMsg r.2.failed r.2.errs) else .ok ())

/-- `PGM_calculate`, `C/model.cpp` lines 349-359, after the options have been accepted: the output buffer and the handle
afterwards. -/
def pgmCalculate (ops : Ops D μ ο) (dims : List D) (m : μ) (buf : Nat → ο) (h : Option Handle) :
    (Nat → ο) × Option Handle :=
  let r := calcMD ops dims m 0 buf
  (r.1, (callWithCatch h r.2 batchHandler ()).2)

end PGM.CApi
