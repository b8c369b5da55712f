import Verif.Index.Model

/-!
# Model of the heterogeneous component container

`P/container.hpp`. A container stores one vector per storageable type (numbered by their position in the type
list) and a hash map from component ID to (group, position). The C++ class is a template over the type lists; the
model is parametric in the subtype relation `isBase T g` ("gettable type `T` is a base class of storageable type
number `g`", the table `is_base` at lines 271-272).

Simplifications: `std::unordered_map` is a finite map given as a function; `ID` is `Int`; the object constructor
called by `emplace_back` is an argument that either produced a value or threw.
-/

namespace PGM.Container

/-- `Idx2D`, `P/common/common.hpp`: group (type number) and position in the vector. -/
structure Idx2D where
  group : Nat
  pos : Nat
deriving DecidableEq, Repr

/-- Exceptions visible at this level: `ConflictID`, `IDNotFound`, `IDWrongType` (`P/common/exception.hpp`), or an
exception of the constructor of the component. `undefined` marks an out-of-range access. -/
inductive Err where
  | conflictID (id : Int)
  | idNotFound (id : Int)
  | idWrongType (id : Int)
  | ctor (msg : String)
  | undefined
deriving DecidableEq, Repr

/-- The data members `vectors_` and `map_`, `P/container.hpp` lines 227-228. -/
structure Container (α : Type) where
  vectors : List (List α)
  map : Int → Option Idx2D

variable {α τ : Type}

/-- A default constructed container for `k` storageable types. -/
def empty (k : Nat) : Container α := ⟨List.replicate k [], fun _ => none⟩

/-- `emplace<Storageable>(id, args...)`, `P/container.hpp` lines 88-103. `g` is the number of the storageable type
(`get_cls_pos_v`), `ctor` the outcome of the constructor. The vector is extended before the map is written; if the
constructor throws, neither changes. -/
def emplace (c : Container α) (id : Int) (g : Nat) (ctor : Except String α) : Except Err (Container α) :=
  match c.map id with
  | some _ => .error (.conflictID id)
  | none =>
    match c.vectors[g]? with
    | none => .error .undefined
    | some vec =>
      match ctor with
      | .error e => .error (.ctor e)
      | .ok x =>
        .ok { vectors := c.vectors.set g (vec ++ [x]),
              map := fun i => if i = id then some ⟨g, vec.length⟩ else c.map i }

/-- `get_idx_by_id(id)`, lines 132-138. -/
def getIdxById (c : Container α) (id : Int) : Except Err Idx2D :=
  match c.map id with
  | none => .error (.idNotFound id)
  | some idx => .ok idx

/-- `get_idx_by_id<Gettable>(id)`, lines 139-145. -/
def getIdxByIdTyped (isBase : τ → Nat → Bool) (t : τ) (c : Container α) (id : Int) : Except Err Idx2D := do
  let result ← getIdxById c id
  if isBase t result.group then pure result else .error (.idWrongType id)

/-- `get_item<Gettable>(Idx2D)`, lines 106-119: with a group that does not derive from `Gettable` a null function
pointer is called, with a position out of range the vector is read out of range; both are undefined. -/
def getItem (isBase : τ → Nat → Bool) (t : τ) (c : Container α) (idx : Idx2D) : Except Err α :=
  if isBase t idx.group then
    match c.vectors[idx.group]? with
    | none => .error .undefined
    | some vec =>
      match vec[idx.pos]? with
      | none => .error .undefined
      | some x => .ok x
  else .error .undefined

/-- `get_item<Gettable>(ID)`, lines 151-158. -/
def getItemById (isBase : τ → Nat → Bool) (t : τ) (c : Container α) (id : Int) : Except Err α := do
  let idx ← getIdxByIdTyped isBase t c id
  getItem isBase t c idx

/-- `size_per_vector<Gettable>()`, lines 278-284. -/
def sizePerVector (isBase : τ → Nat → Bool) (t : τ) (c : Container α) : List Nat :=
  c.vectors.mapIdx (fun g vec => if isBase t g then vec.length else 0)

/-- `size_per_type<Gettable>()`, lines 286-290 (`size<Gettable>()`, lines 170-173, returns this value once
`set_construction_complete` has stored it). -/
def size (isBase : τ → Nat → Bool) (t : τ) (c : Container α) : Nat :=
  (sizePerVector isBase t c).foldl (· + ·) 0

/-- `accumulate_size_per_vector<Gettable>()`, lines 291-298 (`cum_size_`, stored by
`set_construction_complete`, lines 217-224). -/
def cumSize (isBase : τ → Nat → Bool) (t : τ) (c : Container α) : List Nat :=
  0 :: Index.inclusiveScan 0 (sizePerVector isBase t c)

/-- `get_seq<Gettable>(Idx2D)`, lines 177-181. -/
def getSeq (isBase : τ → Nat → Bool) (t : τ) (c : Container α) (idx : Idx2D) : Option Nat := do
  let s ← (cumSize isBase t c)[idx.group]?
  pure (s + idx.pos)

/-- `get_idx_2d_by_seq<Gettable>(seq)`, lines 192-200; a search that runs off the end is undefined. -/
def getIdx2dBySeq (isBase : τ → Nat → Bool) (t : τ) (c : Container α) (seq : Nat) : Option Idx2D := do
  let cum := cumSize isBase t c
  let found := Index.upperBound cum seq
  if found < cum.length ∧ 0 < found then
    let group := found - 1
    let s ← cum[group]?
    pure ⟨group, seq - s⟩
  else none

/-- `get_item_by_seq<Gettable>(seq)`, lines 160-167. -/
def getItemBySeq (isBase : τ → Nat → Bool) (t : τ) (c : Container α) (seq : Nat) : Except Err α :=
  match getIdx2dBySeq isBase t c seq with
  | none => .error .undefined
  | some idx => getItem isBase t c idx

/-- `iter<Gettable>()` / `citer<Gettable>()`, lines 301-358: dereferencing sequence numbers `0 .. size-1`. -/
def iter (isBase : τ → Nat → Bool) (t : τ) (c : Container α) : List (Except Err α) :=
  (List.range (size isBase t c)).map (getItemBySeq isBase t c)

/-- `get_sub_cls_pos_v<Sub>` (lines 56-57 with 33-41): number of the first storageable type deriving from `Sub`,
or the number of types if there is none. -/
def subClsPos (isBase : τ → Nat → Bool) (sub : τ) (k : Nat) : Nat :=
  ((List.range k).takeWhile (fun g => !isBase sub g)).length

/-- `get_start_idx<Base, Sub>()`, lines 207-211. -/
def getStartIdx (isBase : τ → Nat → Bool) (base sub : τ) (c : Container α) : Option Nat :=
  (cumSize isBase base c)[subClsPos isBase sub c.vectors.length]?

/-- One insertion request. -/
structure Op (α : Type) where
  id : Int
  group : Nat
  ctor : Except String α

/-- Insert a list of components, stopping at the first exception, as the loops of the model constructor do
(`P/main_model_impl.hpp` `add_components`, `P/main_core/input.hpp` `add_component`). -/
def emplaceAll (c : Container α) : List (Op α) → Except Err (Container α)
  | [] => .ok c
  | op :: ops => do
    let c' ← emplace c op.id op.group op.ctor
    emplaceAll c' ops

end PGM.Container
