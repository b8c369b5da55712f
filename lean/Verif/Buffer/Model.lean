import Verif.CApi.Model

/-!
# Model of component buffers and of the meta data

`P/auxiliary/meta_data.hpp`, `P/auxiliary/meta_gen/gen_getters.hpp`, `C/buffer.cpp`, `C/meta_data.cpp`.

Memory is a function from addresses to bytes, with the set of addresses that may be accessed. Access outside of it, or with the wrong alignment, is
undefined behaviour: `none`. Copying a value copies its bytes. The tables of the records are in `Tables.lean`.
-/

namespace PGM.Buffer

open PGM.CApi (Exn Handle callWithCatch defaultHandler)

/-! ## Records -/

/-- `CType`, `P/common/enum.hpp` line 111, with `ctype_t`, `P/auxiliary/meta_data.hpp` lines 31-50. -/
inductive CType where
  | int32 | int8 | double | double3
deriving DecidableEq, Repr

/-- `sizeof` of the type; for `RealValue<asymmetric_t>` see the assertion in `P/common/three_phase_tensor.hpp` line 154. -/
def CType.size : CType → Nat
  | .int32 => 4 | .int8 => 1 | .double => 8 | .double3 => 24

/-- `alignof` of the type; `P/common/three_phase_tensor.hpp` line 155. The value for `double` is that of the usual 64-bit platforms. -/
def CType.align : CType → Nat
  | .int32 => 4 | .int8 => 1 | .double => 8 | .double3 => 8

/-- A member of a record. -/
abbrev Member := String × CType

/-- The next multiple of `a`. -/
def roundUp (n a : Nat) : Nat := (n + a - 1) / a * a

/-- The offsets of the members of a standard layout record: every member is at the next multiple of its alignment. -/
def place : Nat → List Member → List (Member × Nat)
  | _, [] => []
  | pos, x :: l => (x, roundUp pos x.2.align) :: place (roundUp pos x.2.align + x.2.size) l

/-- Where the last member ends. -/
def ending : Nat → List Member → Nat
  | pos, [] => pos
  | pos, x :: l => ending (roundUp pos x.2.align + x.2.size) l

/-- `alignof` of a record. -/
def recordAlign (l : List Member) : Nat := (l.map fun x => x.2.align).foldr max 1

/-- `sizeof` of a record. -/
def recordSize (l : List Member) : Nat := roundUp (ending 0 l) (recordAlign l)

/-- A record, the list of its attributes in `P/auxiliary/meta_gen`, and the records that it is converted to by `reinterpret_cast`. -/
structure Struct where
  members : List Member
  attributes : List String
  bases : List (List Member) := []

/-- `MetaAttribute`, `P/auxiliary/meta_data.hpp` lines 95-101. -/
structure Attr where
  name : String
  ctype : CType
  offset : Nat
  componentSize : Nat
deriving DecidableEq, Repr

/-- `MetaComponent`, `P/auxiliary/meta_data.hpp` lines 126-131. The members are for `set_nan`. -/
structure Component where
  name : String
  size : Nat
  alignment : Nat
  attributes : List Attr
  members : List Member
deriving DecidableEq, Repr

/-- The type and the offset of a member. -/
def memberAt (l : List Member) (name : String) : Option (Member × Nat) := (place 0 l).find? fun x => x.1.1 == name

/-- `get_meta_attribute`, `P/auxiliary/meta_gen/gen_getters.hpp` lines 28-39. A name that is not a member does not compile: there is no attribute then. -/
def metaAttribute (l : List Member) (name : String) : Option Attr := (memberAt l name).map fun x => ⟨name, x.1.2, x.2, recordSize l⟩

/-- `get_meta_component`, `P/auxiliary/meta_gen/gen_getters.hpp` lines 74-80. -/
def metaComponent (name : String) (S : Struct) : Component :=
  ⟨name, recordSize S.members, recordAlign S.members, S.attributes.filterMap (metaAttribute S.members), S.members⟩

/-! ## Memory -/

/-- The memory of the process. -/
structure Mem where
  byte : Int → UInt8
  valid : Int → Bool

/-- A value of `n` bytes may be accessed. -/
def accessible (m : Mem) (a : Int) (n al : Nat) : Bool := decide (a % al = 0) && (List.range n).all fun (j : Nat) => m.valid (a + j)

/-- The bytes at an address. -/
def bytesAt (m : Mem) (a : Int) (n : Nat) : List UInt8 := (List.range n).map fun (j : Nat) => m.byte (a + j)

/-- Reading a value. -/
def load (m : Mem) (a : Int) (t : CType) : Option (List UInt8) := if accessible m a t.size t.align then some (bytesAt m a t.size) else none

/-- The memory with other bytes at an address. -/
def write (m : Mem) (a : Int) (n : Nat) (bs : List UInt8) : Mem :=
  { m with byte := fun x => if a ≤ x ∧ x < a + n then bs[(x - a).toNat]?.getD 0 else m.byte x }

/-- Writing a value. -/
def store (m : Mem) (a : Int) (t : CType) (bs : List UInt8) : Option Mem := if accessible m a t.size t.align then some (write m a t.size bs) else none

/-- Copying a value. -/
def copy (t : CType) (from_ to : Int) (m : Mem) : Option Mem := (load m from_ t).bind (store m to t)

/-! ## Attributes -/

/-- The member of an element of a buffer. -/
def memberAddress (a : Attr) (buf pos : Int) : Int := buf + pos * a.componentSize + a.offset

/-- `set_value`, `P/auxiliary/meta_gen/gen_getters.hpp` lines 48-52. -/
def setValue (a : Attr) (buf val pos : Int) (m : Mem) : Option Mem := copy a.ctype val (memberAddress a buf pos) m

/-- `get_value`, `P/auxiliary/meta_gen/gen_getters.hpp` lines 53-57. -/
def getValue (a : Attr) (buf val pos : Int) (m : Mem) : Option Mem := copy a.ctype (memberAddress a buf pos) val m

/-- The bytes as a number, least significant byte first. -/
def number (bs : List UInt8) : Nat := bs.foldr (fun b n => b.toNat + 256 * n) 0

/-- `std::isnan`. -/
def doubleIsNan (bs : List UInt8) : Bool := decide (number bs / 2 ^ 52 % 2 ^ 11 = 2047) && decide (number bs % 2 ^ 52 ≠ 0)

/-- `is_nan`, `P/common/three_phase_tensor.hpp` lines 365-376, with `na_IntS` and `na_IntID`, `P/common/common.hpp` lines 88-89. -/
def isNan : CType → List UInt8 → Bool
  | .int8, bs => decide (number bs = 2 ^ 7)
  | .int32, bs => decide (number bs = 2 ^ 31)
  | .double, bs => doubleIsNan bs
  | .double3, bs => doubleIsNan (bs.take 8) && doubleIsNan ((bs.drop 8).take 8) && doubleIsNan (bs.drop 16)

/-- `check_nan`, `P/auxiliary/meta_gen/gen_getters.hpp` lines 40-42. -/
def checkNan (a : Attr) (buf pos : Int) (m : Mem) : Option Bool := (load m (memberAddress a buf pos) a.ctype).map (isNan a.ctype)

/-- One element of `std::ranges::all_of`. -/
def allNanStep (a : Attr) (buf : Int) (m : Mem) (r : Bool) (pos : Nat) : Option Bool := if r then checkNan a buf pos m else some false

/-- `check_all_nan`, `P/auxiliary/meta_gen/gen_getters.hpp` lines 43-47. -/
def checkAllNan (a : Attr) (buf : Int) (size : Nat) (m : Mem) : Option Bool := (List.range size).foldlM (allNanStep a buf m) true

/-- `nan`, `na_IntS` and `na_IntID`, `P/common/common.hpp` lines 87-89, on a little endian machine. -/
def nanBytes : CType → List UInt8
  | .int8 => [0x80]
  | .int32 => [0, 0, 0, 0x80]
  | .double => [0, 0, 0, 0, 0, 0, 0xf8, 0x7f]
  | .double3 => [0, 0, 0, 0, 0, 0, 0xf8, 0x7f, 0, 0, 0, 0, 0, 0, 0xf8, 0x7f, 0, 0, 0, 0, 0, 0, 0xf8, 0x7f]

/-- Writing the default value of one member. -/
def nanMember (base : Int) (m : Mem) (x : Member × Nat) : Option Mem := store m (base + x.2) x.1.2 (nanBytes x.1.2)

/-- Assigning `StructType{}` to one element. The bytes between the members may become anything: `pad`. -/
def nanElement (pad : Int → UInt8) (l : List Member) (base : Int) (m : Mem) : Option Mem :=
  if accessible m base (recordSize l) (recordAlign l) then
    (place 0 l).foldlM (nanMember base) { m with byte := fun x => if base ≤ x ∧ x < base + recordSize l then pad x else m.byte x }
  else none

/-- `set_nan`, `P/auxiliary/meta_gen/gen_getters.hpp` lines 81-85. A negative size is undefined behaviour. -/
def setNan (pad : Int → UInt8) (l : List Member) (buf pos size : Int) (m : Mem) : Option Mem :=
  if size < 0 then none
  else (List.range size.toNat).foldlM (fun m k => nanElement pad l (buf + (pos + (k : Nat)) * recordSize l) m) m

/-! ## The C API of buffers -/

/-- `IllegalOperationError`, `C/input_sanitization.hpp` lines 78-83. -/
def nullError : Exn := .std "Illegal operation: Received null pointer when not allowed\n"

/-- One round of the loop of `buffer_get_set_value`, `C/buffer.cpp` lines 83-90. -/
def transferStep (get : Bool) (a : Attr) (buf val off stride : Int) (m : Mem) (k : Nat) : Option Mem :=
  if get then getValue a buf (val + stride * (off + k)) (off + k) m else setValue a buf (val + stride * (off + k)) (off + k) m

/-- The stride, `C/buffer.cpp` lines 75-78. -/
def strideOf (a : Attr) (stride : Int) : Int := if stride < 0 then a.ctype.size else stride

/-- `buffer_get_set_value`, `C/buffer.cpp` lines 65-91. A null pointer is 0. -/
def getSet (get : Bool) (a : Attr) (buf val off size stride : Int) (m : Mem) : Option (Except Exn Mem) :=
  if size ≤ 0 then some (.ok m)
  else if val = 0 then some (.error nullError)
  else if buf = 0 then some (.error nullError)
  else ((List.range size.toNat).foldlM (transferStep get a buf val off (strideOf a stride)) m).map .ok

/-- A call that changes memory, with `call_with_catch`. -/
def call (h : Option Handle) (m : Mem) (r : Option (Except Exn Mem)) : Option (Mem × Option Handle) :=
  r.map fun f => callWithCatch h f (defaultHandler 1) m

/-- `safe_ptr_get` of a pointer to meta data. -/
def withPtr {α β : Type} (p : Option α) (f : α → Option (Except Exn β)) : Option (Except Exn β) :=
  match p with
  | none => some (.error nullError)
  | some a => f a

/-- `PGM_buffer_set_value`, `C/buffer.cpp` lines 93-99. -/
def bufferSetValue (h : Option Handle) (a : Option Attr) (buf src off size stride : Int) (m : Mem) : Option (Mem × Option Handle) :=
  call h m (withPtr a fun a => getSet false a buf src off size stride m)

/-- `PGM_buffer_get_value`, `C/buffer.cpp` lines 100-106. -/
def bufferGetValue (h : Option Handle) (a : Option Attr) (buf dest off size stride : Int) (m : Mem) : Option (Mem × Option Handle) :=
  call h m (withPtr a fun a => getSet true a buf dest off size stride m)

/-- `PGM_buffer_set_nan`, `C/buffer.cpp` lines 57-62. -/
def bufferSetNan (pad : Int → UInt8) (h : Option Handle) (c : Option Component) (buf off size : Int) (m : Mem) : Option (Mem × Option Handle) :=
  call h m (withPtr c fun c => if buf = 0 then some (.error nullError) else (setNan pad c.members buf off size m).map .ok)

/-- `size_t` arithmetic. -/
def word (n : Int) : Nat := (n % 2 ^ 64).toNat

/-- The number of bytes that `PGM_create_buffer` asks for, `C/buffer.cpp` lines 38-42, and the alignment. -/
def request (c : Component) (size : Int) : Nat × Nat :=
  let alignment := max c.alignment 8
  let requested := word (c.size * word size)
  (alignment, word (word (requested + alignment - 1) / alignment * alignment : Nat))

/-- `PGM_create_buffer`, `C/buffer.cpp` lines 34-49. `alloc` is `std::aligned_alloc`, which returns 0 if it fails. -/
def createBuffer (alloc : Nat → Nat → Int) (h : Option Handle) (c : Option Component) (size : Int) : Int × Option Handle :=
  match c with
  | none => callWithCatch h (.error nullError) (defaultHandler 1) 0
  | some c => callWithCatch h (.ok (alloc (request c size).1 (request c size).2)) (defaultHandler 1) 0

/-! ## The C API of meta data -/

/-- `MetaDataset`, `P/auxiliary/meta_data.hpp` lines 168-170. -/
structure Dataset where
  name : String
  components : List Component

/-- `get_dataset`, `get_component` and `get_attribute`, `P/auxiliary/meta_data.hpp` lines 140-155, 174-181 and 190-197: the first with the name. -/
def byName {α : Type} (name : α → String) (kind wanted : String) (l : List α) : Except Exn α :=
  match l.find? fun x => name x == wanted with
  | some x => .ok x
  | none => .error (.std ("Cannot find " ++ kind ++ " with name: " ++ wanted ++ "!\n"))

/-- `RangedExceptionHandler`, `C/meta_data.cpp` lines 41-57, for the exceptions of these functions: a missing name or index gets the extra line, a null pointer
does not. -/
def rangedHandler (e : Exn) (h : Handle) : Handle :=
  match e with
  | .std msg => if e = nullError then defaultHandler 1 e h else defaultHandler 1 (.std (msg ++ "\n You supplied wrong name and/or index!\n")) h
  | _ => defaultHandler 1 e h

/-- `PGM_meta_get_dataset_by_idx` and its like, `C/meta_data.cpp` lines 68-79, 93-105 and 126-138. A pointer that is returned is `none` if null. -/
def byIdx {α : Type} (h : Option Handle) (idx : Int) (l : List α) : Option α × Option Handle :=
  callWithCatch h (if idx < 0 ∨ idx ≥ l.length then .error (.std "Index out of range!\n") else .ok l[idx.toNat]?) rangedHandler none

/-- `safe_str_view`. -/
def safeStr (s : Option String) : Except Exn String :=
  match s with
  | some s => .ok s
  | none => .error nullError

/-- A dataset by name. -/
def findDataset (D : List Dataset) (d : Option String) : Except Exn Dataset := (safeStr d).bind fun d => byName Dataset.name "dataset" d D

/-- A component by name. -/
def findComponent (D : List Dataset) (d c : Option String) : Except Exn Component :=
  (findDataset D d).bind fun d => (safeStr c).bind fun c => byName Component.name "component" c d.components

/-- An attribute by name. -/
def findAttribute (D : List Dataset) (d c a : Option String) : Except Exn Attr :=
  (findComponent D d c).bind fun c => (safeStr a).bind fun a => byName Attr.name "attribute" a c.attributes

/-- `PGM_meta_get_dataset_by_name`, `C/meta_data.cpp` lines 80-84. -/
def datasetByName (D : List Dataset) (h : Option Handle) (d : Option String) : Option Dataset × Option Handle :=
  callWithCatch h ((findDataset D d).map some) rangedHandler none

/-- `PGM_meta_get_component_by_name`, `C/meta_data.cpp` lines 106-115. -/
def componentByName (D : List Dataset) (h : Option Handle) (d c : Option String) : Option Component × Option Handle :=
  callWithCatch h ((findComponent D d c).map some) rangedHandler none

/-- `PGM_meta_get_attribute_by_name`, `C/meta_data.cpp` lines 139-150. -/
def attributeByName (D : List Dataset) (h : Option Handle) (d c a : Option String) : Option Attr × Option Handle :=
  callWithCatch h ((findAttribute D d c a).map some) rangedHandler none

end PGM.Buffer
