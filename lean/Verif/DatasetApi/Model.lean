import Verif.Dataset.Model
import Verif.CApi.Model

/-!
# The functions of the C API on datasets

`C/dataset.cpp` lines 38-235, with the sanitisation of arguments, `C/input_sanitization.hpp`, and the error handling of `Verif.CApi.Model`. The operations on datasets are those of `Verif.Dataset.Model`.

Simplifications. As in `Verif.Dataset.Model`. Constant and mutable datasets have the same functions and are one kind of object; writable datasets, which only the deserialiser makes, and the next dimension
(C46) are left out. A pointer to a dataset is its number among all datasets that were ever made, so an address is not used again; a pointer to the information about a dataset is the pointer to the dataset.
Messages of exceptions are left out, and memory never runs out. A call with a pointer to a dataset that was destroyed is undefined (`none`).
-/

namespace PGM.DatasetApi

open PGM.CApi PGM.Datasets

/-- The types of datasets in the meta data: `MetaData::get_dataset`, `P/auxiliary/meta_data.hpp`. -/
abbrev MetaData := Nat → Option Meta

/-- A dataset with the name of its type: `DatasetInfo::dataset`, `P/auxiliary/dataset.hpp` lines 61-66. -/
structure Object where
  type : Nat
  set : Dataset

/-- All datasets that were made; `none` after destruction. -/
abbrev World := List (Option Object)

/-- What a function returns: nothing, a pointer to a dataset, a number or a name (`none`: null pointer). -/
inductive Ret where
  | nothing
  | ptr (p : Option Nat)
  | num (n : Int)
  | name (n : Option Nat)
  deriving DecidableEq

/-- The calls; pointers and strings may be null pointers (`none`). -/
inductive Call where
  /-- `PGM_create_dataset_const`, `PGM_create_dataset_mutable`, `C/dataset.cpp` lines 105-111 and 183-189. -/
  | create (type : Option Nat) (isBatch batchSize : Int)
  /-- `PGM_create_dataset_const_from_mutable`, lines 120-125. -/
  | convert (d : Option Nat)
  /-- `PGM_destroy_dataset_const`, `PGM_destroy_dataset_mutable`, lines 127 and 191; they do not touch the handle. -/
  | destroy (d : Option Nat)
  /-- `PGM_dataset_const_add_buffer`, `PGM_dataset_mutable_add_buffer`, lines 129-137 and 193-201. -/
  | addBuffer (d component : Option Nat) (perScenario total : Int) (indptr : Option (List Int)) (data : Option Ptr)
  /-- `PGM_dataset_const_add_attribute_buffer`, `PGM_dataset_mutable_add_attribute_buffer`, lines 139-145 and 203-209. -/
  | addAttribute (d component attribute_ : Option Nat) (data : Option Ptr)
  /-- `PGM_dataset_const_get_info`, `PGM_dataset_mutable_get_info`, lines 153-156 and 211-214. -/
  | getInfo (d : Option Nat)
  /-- `PGM_dataset_info_name`, lines 39-41. -/
  | infoName (d : Option Nat)
  /-- `PGM_dataset_info_is_batch`, lines 43-45. -/
  | isBatch (d : Option Nat)
  /-- `PGM_dataset_info_batch_size`, lines 47-49. -/
  | batchSize (d : Option Nat)
  /-- `PGM_dataset_info_n_components`, lines 51-54. -/
  | nComponents (d : Option Nat)
  /-- `PGM_dataset_info_component_name`, lines 56-61. -/
  | componentName (d : Option Nat) (i : Int)
  /-- `PGM_dataset_info_elements_per_scenario`, lines 63-68. -/
  | perScenario (d : Option Nat) (i : Int)
  /-- `PGM_dataset_info_total_elements`, lines 70-75. -/
  | total (d : Option Nat) (i : Int)

/-- The outcome of a function body: undefined, an exception, or the world and the value afterwards. -/
abbrev Outcome (α : Type) := Option (Except Exn α)

/-- `safe_ptr` and `safe_str_view`, `C/input_sanitization.hpp` lines 86-95: an exception for a null pointer. -/
def safePtr {α : Type} (p : Option α) (f : α → Outcome β) : Outcome β :=
  match p with
  | none => some (.error (.std ""))
  | some a => f a

/-- The dataset behind a pointer: `safe_ptr_get`, `C/input_sanitization.hpp` line 93, and the access. -/
def deref (w : World) (p : Option Nat) (f : Nat → Object → Outcome β) : Outcome β :=
  safePtr p fun d =>
    match w[d]? with
    | some (some O) => f d O
    | _ => none

/-- Errors of the dataset are exceptions: `DatasetError` and the errors of `P/auxiliary/meta_data.hpp`, which `call_with_catch` catches. -/
def lift {α : Type} (r : Except Err α) (f : α → Outcome β) : Outcome β :=
  match r with
  | .ok a => f a
  | .error .undefined => none
  | .error _ => some (.error (.std ""))

/-- `safe_bool`, `C/input_sanitization.hpp` line 64. -/
def safeBool (n : Int) : Bool := n ≠ 0

/-- `to_c_bool`, `C/input_sanitization.hpp` line 65. -/
def toCBool (b : Bool) : Int := if b then 1 else 0

/-- `component_info.at(component_idx)`, `C/dataset.cpp` lines 59, 66 and 73: a negative index becomes a large unsigned one. -/
def componentAt (O : Object) (i : Int) (f : Component → Ret) (w : World) : Outcome (World × Ret) :=
  if i < 0 then some (.error (.std ""))
  else
    match O.set.components[i.toNat]? with
    | none => some (.error (.std ""))
    | some c => some (.ok (w, f c))

/-- The bodies of the functions, `C/dataset.cpp` lines 38-214; `create` and `destroy` are those of `C/safe_memory_handling.hpp` lines 26-37 (deletion of a null pointer does nothing). -/
def body (M : MetaData) (w : World) : Call → Outcome (World × Ret)
  | .create type isBatch batchSize =>
    safePtr type fun t =>
      match M t with
      | none => some (.error (.std ""))
      | some m => lift (Datasets.create m (safeBool isBatch) batchSize) fun D => some (.ok (w ++ [some ⟨t, D⟩], .ptr (some w.length)))
  | .convert d => deref w d fun _ O => some (.ok (w ++ [some ⟨O.type, Datasets.convert O.set⟩], .ptr (some w.length)))
  | .destroy d =>
    match d with
    | none => some (.ok (w, .nothing))
    | some _ => deref w d fun k _ => some (.ok (w.set k none, .nothing))
  | .addBuffer d component perScenario total indptr data =>
    deref w d fun k O => safePtr component fun c =>
      lift (Datasets.addBuffer O.set c perScenario total indptr data) fun D => some (.ok (w.set k (some { O with set := D }), .nothing))
  | .addAttribute d component attr data =>
    deref w d fun k O => safePtr component fun c => safePtr attr fun a =>
      lift (Datasets.addAttribute O.set c a data) fun D => some (.ok (w.set k (some { O with set := D }), .nothing))
  | .getInfo d => deref w d fun k _ => some (.ok (w, .ptr (some k)))
  | .infoName d => deref w d fun _ O => some (.ok (w, .name (some O.type)))
  | .isBatch d => deref w d fun _ O => some (.ok (w, .num (toCBool O.set.isBatch)))
  | .batchSize d => deref w d fun _ O => some (.ok (w, .num O.set.batchSize))
  | .nComponents d => deref w d fun _ O => some (.ok (w, .num O.set.components.length))
  | .componentName d i => deref w d fun _ O => componentAt O i (fun c => .name (some c.name)) w
  | .perScenario d i => deref w d fun _ O => componentAt O i (fun c => .num c.perScenario) w
  | .total d i => deref w d fun _ O => componentAt O i (fun c => .num c.total) w

/-- The value-initialised return value of `call_with_catch`, `C/handle.hpp` lines 70-89. -/
def emptyRet : Call → Ret
  | .create .. | .convert _ | .getInfo _ => .ptr none
  | .destroy _ | .addBuffer .. | .addAttribute .. => .nothing
  | .infoName _ | .componentName .. => .name none
  | .isBatch _ | .batchSize _ | .nComponents _ | .perScenario .. | .total .. => .num 0

/-- A call: `call_with_catch`, `C/handle.hpp` lines 70-89, except for destruction. -/
def step (M : MetaData) (w : World) (h : Handle) (c : Call) : Option ((World × Ret) × Handle) :=
  match c, body M w c with
  | _, none => none
  | .destroy _, some (.ok r) => some (r, h)
  | _, some r =>
    match callWithCatch (some h) r (defaultHandler 1) (w, emptyRet c) with
    | (x, some h') => some (x, h')
    | (_, none) => none

/-- What the caller sees of a call: the call, the value and the error code of the handle. -/
abbrev Seen := Call × Ret × Nat

/-- A sequence of calls; the calls seen so far, the last one first. -/
def run (M : MetaData) : World → Handle → List Seen → List Call → Option (World × Handle × List Seen)
  | w, h, seen, [] => some (w, h, seen)
  | w, h, seen, c :: cs =>
    match step M w h c with
    | none => none
    | some ((w', r), h') => run M w' h' ((c, r, h'.errCode) :: seen) cs

end PGM.DatasetApi
