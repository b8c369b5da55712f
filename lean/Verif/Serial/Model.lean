import Mathlib.Data.Rat.Defs
import Mathlib.Data.List.Basic

/-!
# Serialisation: model of the serialiser and the deserialiser (C37)

`P/auxiliary/serialization/serializer.hpp` and `P/auxiliary/serialization/deserializer.hpp`.

Simplifications: the msgpack library is trusted to encode and decode; a msgpack buffer is the list of its tokens, and an offset into it is the list of
the tokens from there on. A finite double is a rational number (the sign of zero is not kept). The memory of a component is a function from the
index of an element and the name of an attribute, for row-based and columnar buffers alike. Components and attributes of the meta data, compared by
pointer in the code, are compared by name. The text of error messages is not modelled. `check_uniform` reads `dataset_handler_` while that is being
constructed (`deserializer.hpp` lines 832-848); the model reads the batch size of the dataset under construction, which is what the code does when the
compiler applies the named return value optimisation in `pre_parse_impl`. -/

namespace PGM.Serial

/-- A double that is not NaN. -/
inductive Real
  | fin (q : ℚ) | inf | ninf
  deriving DecidableEq, Repr

/-- `CType`, the types of attributes. -/
inductive CType
  | double | double3 | int8 | int32
  deriving DecidableEq, Repr

/-- The value of an attribute in memory; `none` is NaN. -/
inductive Cell
  | real (x : Option Real)
  | three (a b c : Option Real)
  | int (n : Int)
  deriving DecidableEq, Repr

/-- The unset value of integers: `na_IntS`, `na_IntID`. -/
def naInt : CType → Int
  | .int8 => -128
  | _ => -2147483648

/-- `nan_value`, `P/auxiliary/meta_data.hpp` lines 69-92. -/
def nanCell : CType → Cell
  | .double => .real none
  | .double3 => .three none none none
  | .int8 => .int (-128)
  | .int32 => .int (-2147483648)

/-- `is_nan`, `P/common/three_phase_tensor.hpp` lines 364-377; a three-phase value is NaN if all phases are. -/
def isNan (t : CType) : Cell → Bool
  | .real x => x.isNone
  | .three a b c => a.isNone && b.isNone && c.isNone
  | .int n => n == naInt t

/-- `MetaAttribute`, `MetaComponent`, `MetaDataset`, `P/auxiliary/meta_data.hpp` lines 98-208. -/
structure MetaAttribute where
  name : String
  ctype : CType
  deriving DecidableEq, Repr

structure MetaComponent where
  name : String
  attributes : List MetaAttribute
  deriving DecidableEq, Repr

structure MetaDataset where
  name : String
  components : List MetaComponent
  deriving DecidableEq, Repr

/-- A buffer of a component with its description: `columns = none` for an array of structs, `some l` for attribute buffers `l`; `indptr` is used if
`perScenario < 0`. -/
structure Component where
  component : MetaComponent
  perScenario : Int
  total : Int
  indptr : List Int
  columns : Option (List MetaAttribute)
  cell : Nat → String → Cell

/-- The dataset to be serialised. -/
structure Dataset where
  dataset : MetaDataset
  isBatch : Bool
  batchSize : Nat
  components : List Component

/-- The tokens of msgpack. -/
inductive Token
  | nil
  | bool (b : Bool)
  | int (n : Int)
  | float (x : Real)
  | str (s : String)
  | array (n : Nat)
  | map (n : Nat)
  deriving DecidableEq, Repr

/-! ## Serialiser

A serialisation is the sequence of its calls of the packer; the call `none` throws `SerializationError` (and nothing after it happens). -/

/-- `pack_array` and `pack_map`, `serializer.hpp` lines 584-600: counts that do not fit in 32 bits throw. -/
def packArray (n : Nat) : Option Token := if n < 2 ^ 32 then some (.array n) else none

def packMap (n : Nat) : Option Token := if n < 2 ^ 32 then some (.map n) else none

/-- `ComponentBuffer`, lines 226-241: a part of the buffer of a component. -/
structure View where
  source : Component
  idx : Nat
  size : Nat

/-- The begin of a scenario in the buffer: `indptr[scenario]` or `elements_per_scenario * scenario`, lines 346-352. -/
def begin_ (c : Component) (scenario : Nat) : Int := if c.perScenario < 0 then c.indptr.getD scenario 0 else c.perScenario * scenario

/-- `create_scenario_buffer_view`, lines 335-359, for the scenarios from `first` up to `last`; only non-empty views are stored. -/
def views (D : Dataset) (first last : Nat) : List View :=
  (D.components.map fun c => (⟨c, (begin_ c first).toNat, (begin_ c last - begin_ c first).toNat⟩ : View)).filter fun v => 0 < v.size

/-- `store_buffers`, lines 327-333: the views of every scenario, and of all scenarios together. -/
def scenarioViews (D : Dataset) : List (List View) := (List.range D.batchSize).map fun s => views D s (s + 1)

def allViews (D : Dataset) : List View := views D 0 D.batchSize

/-- `check_all_nan` of an attribute over a view, `P/auxiliary/meta_data_gen.hpp` and `serializer.hpp` lines 613-622. -/
def allNan (v : View) (a : MetaAttribute) : Bool := (List.range v.size).all fun k => isNan a.ctype (v.source.cell (v.idx + k) a.name)

/-- Whether the buffer has the attribute: always in a row-based buffer. -/
def hasColumn (c : Component) (a : MetaAttribute) : Bool :=
  match c.columns with
  | none => true
  | some l => l.any fun b => b.name == a.name

/-- `check_attributes`, lines 361-392, for one component: the attributes that are not NaN everywhere, in the order of the meta data. -/
def listed (v : View) : List MetaAttribute := v.source.component.attributes.filter fun a => hasColumn v.source a && !allNan v a

/-- `attributes_`, a map by the address of the component: in the order of the meta data. -/
def attributesMap (D : Dataset) : List (String × List MetaAttribute) :=
  D.dataset.components.filterMap fun m => ((allViews D).find? fun v => v.source.component.name == m.name).map fun v => (m.name, listed v)

/-- The packer for a three-phase value, lines 54-71: a phase that is NaN is nil. -/
def packPhase : Option Real → Token
  | none => .nil
  | some x => .float x

/-- `packer_.pack(value)`, lines 624-636. -/
def packCell : Cell → List Token
  | .real x => [packPhase x]
  | .three a b c => [.array 3, packPhase a, packPhase b, packPhase c]
  | .int n => [.int n]

/-- An attribute in a list element: nil if NaN, lines 519-546. -/
def packInList (c : Component) (i : Nat) (a : MetaAttribute) : List Token :=
  if isNan a.ctype (c.cell i a.name) then [.nil] else packCell (c.cell i a.name)

/-- `pack_element_in_list`, lines 519-546. -/
def elementInList (c : Component) (attributes : List MetaAttribute) (i : Nat) : List (Option Token) :=
  packArray attributes.length :: (attributes.flatMap (packInList c i)).map some

/-- The attributes of the buffer, in the order in which `pack_element_in_dict` visits them. -/
def columnsOf (c : Component) : List MetaAttribute := c.columns.getD c.component.attributes

/-- The attributes that are packed by `pack_element_in_dict`, lines 548-582. -/
def valid (c : Component) (i : Nat) : List MetaAttribute := (columnsOf c).filter fun a => !isNan a.ctype (c.cell i a.name)

/-- `pack_element_in_dict`, lines 548-582. -/
def elementInDict (c : Component) (i : Nat) : List (Option Token) :=
  packMap (valid c i).length :: ((valid c i).flatMap fun a => Token.str a.name :: packCell (c.cell i a.name)).map some

/-- `attributes_.find(component)`, lines 484-491. -/
def attributesOf (D : Dataset) (name : String) : List MetaAttribute := ((attributesMap D).lookup name).getD []

/-- One element of `pack_component`, lines 509-516. -/
def packElement (D : Dataset) (compact : Bool) (c : Component) (i : Nat) : List (Option Token) :=
  if compact then elementInList c (attributesOf D c.component.name) i else elementInDict c i

/-- `pack_component`, lines 462-517. -/
def packComponent (D : Dataset) (compact : Bool) (v : View) : List (Option Token) :=
  some (.str v.source.component.name) :: packArray v.size :: (List.range v.size).flatMap fun k => packElement D compact v.source (v.idx + k)

/-- `pack_scenario`, lines 455-460. -/
def packScenario (D : Dataset) (compact : Bool) (vs : List View) : List (Option Token) :=
  packMap vs.length :: vs.flatMap (packComponent D compact)

/-- `pack_data`, lines 443-453. -/
def packData (D : Dataset) (compact : Bool) : List (Option Token) :=
  some (.str "data") :: ((if D.isBatch then [packArray D.batchSize] else []) ++ (scenarioViews D).flatMap (packScenario D compact))

/-- `pack_attributes`, lines 438-441: the map is empty unless the compact list is used, lines 415-419. -/
def packAttributes (D : Dataset) (compact : Bool) : List (Option Token) :=
  let m := if compact then attributesMap D else []
  some (.str "attributes") :: packMap m.length :: m.flatMap fun x =>
    some (.str x.1) :: packArray x.2.length :: x.2.map fun a => some (.str a.name)

/-- `pack_root_dict`, lines 425-436. -/
def packRoot (D : Dataset) : List (Option Token) :=
  [some (.map 5), some (.str "version"), some (.str "1.0"), some (.str "type"), some (.str D.dataset.name), some (.str "is_batch"), some (.bool D.isBatch)]

/-- `serialize`, lines 412-423. -/
def serialize (D : Dataset) (compact : Bool) : List (Option Token) := packRoot D ++ packAttributes D compact ++ packData D compact

/-! ## Deserialiser -/

/-- `SerializationError`, names that the meta data does not know, other errors of the dataset. -/
inductive Err
  | serialization | unknownName | dataset | undefined
  deriving DecidableEq, Repr

/-- The result of parsing at an offset: a value and the offset behind what was parsed. -/
abbrev Parse (α : Type) := List Token → Except Err (α × List Token)

/-- `parse_map_array<visit_map_t, move_forward>`, `deserializer.hpp` lines 551-561. -/
def parseMap : Parse Nat
  | .map n :: r => .ok (n, r)
  | _ => .error .serialization

def parseArray : Parse Nat
  | .array n :: r => .ok (n, r)
  | _ => .error .serialization

/-- `parse_map_array<visit_map_array_t, ...>`: the size, and whether it is a map. -/
def parseMapArray : Parse (Nat × Bool)
  | .map n :: r => .ok ((n, true), r)
  | .array n :: r => .ok ((n, false), r)
  | _ => .error .serialization

/-- `parse_string` and `parse_bool`, lines 563-573. -/
def parseString : Parse String
  | .str s :: r => .ok (s, r)
  | _ => .error .serialization

def parseBool : Parse Bool
  | .bool b :: r => .ok (b, r)
  | _ => .error .serialization

/-- The number of objects that follow a token as its content. -/
def arity : Token → Nat
  | .array n => n
  | .map n => 2 * n
  | _ => 0

/-- The tokens behind `n` complete objects, and whether there was a map among them: `parse_skip` and `parse_skip_check_map`, lines 575-584. -/
def skip : Nat → List Token → Option (Bool × List Token)
  | 0, r => some (false, r)
  | _ + 1, [] => none
  | n + 1, t :: r => (skip (n + arity t) r).map fun x => ((match t with | .map _ => true | _ => x.1), x.2)

def parseSkip : Parse Bool := fun r =>
  match skip 1 r with
  | some x => .ok x
  | none => .error .serialization

/-- `n` times the same parser. -/
def times {α : Type} (p : Parse α) : Nat → Parse (List α)
  | 0, r => .ok ([], r)
  | n + 1, r =>
    match p r with
    | .error e => .error e
    | .ok (a, r') =>
      match times p n r' with
      | .error e => .error e
      | .ok (l, r'') => .ok (a :: l, r'')

/-- One component of `read_predefined_attributes`, lines 708-715. -/
def readAttributes1 : Parse (String × List String) := fun r =>
  match parseString r with
  | .error e => .error e
  | .ok (name, r1) =>
    match parseArray r1 with
    | .error e => .error e
    | .ok (n, r2) =>
      match times parseString n r2 with
      | .error e => .error e
      | .ok (l, r3) => .ok ((name, l), r3)

/-- `read_predefined_attributes`, lines 704-719. -/
def readAttributes : Parse (List (String × List String)) := fun r =>
  match parseMap r with
  | .error e => .error e
  | .ok (n, r1) => times readAttributes1 n r1

/-- `ComponentByteMeta`, lines 447-452. -/
structure ByteMeta where
  component : String
  size : Nat
  offset : List Token
  hasMap : Bool

/-- One component of `pre_count_scenario`, lines 767-773. -/
def preCountComponent : Parse ByteMeta := fun r =>
  match parseString r with
  | .error e => .error e
  | .ok (name, r1) =>
    match parseArray r1 with
    | .error e => .error e
    | .ok (n, _) =>
      match parseSkip r1 with
      | .error e => .error e
      | .ok (b, r2) => .ok (⟨name, n, r1, b⟩, r2)

/-- `pre_count_scenario`, lines 763-777. -/
def preCountScenario : Parse (List ByteMeta) := fun r =>
  match parseMap r with
  | .error e => .error e
  | .ok (n, r1) => times preCountComponent n r1

/-- What `pre_parse_impl` collects, lines 594-604. -/
structure Root where
  version : Option String
  type : Option String
  isBatch : Bool
  hasIsBatch : Bool
  attributes : Option (List (String × List String))
  data : Option (List (List ByteMeta))

/-- `pre_count_data`, lines 742-761: the scenarios, and whether it is a batch. -/
def preCountData (R : Root) : Parse (List (List ByteMeta) × Bool) := fun r =>
  match parseMapArray r with
  | .error e => .error e
  | .ok ((n, isMap), r1) =>
    if R.hasIsBatch = true ∧ R.isBatch = isMap then .error .serialization
    else
      match (if isMap then times preCountScenario 1 r else times preCountScenario n r1) with
      | .error e => .error e
      | .ok (l, r2) => .ok ((l, !isMap), r2)

/-- The value of one key of the root, lines 638-677. -/
def rootValue (key : String) (R : Root) : Parse Root := fun r =>
  if key = "version" then
    match parseString r with
    | .error e => .error e
    | .ok (s, r1) => .ok ({ R with version := some s }, r1)
  else if key = "type" then
    match parseString r with
    | .error e => .error e
    | .ok (s, r1) => .ok ({ R with type := some s }, r1)
  else if key = "is_batch" then
    match parseBool r with
    | .error e => .error e
    | .ok (b, r1) =>
      if R.data.isSome = true ∧ R.isBatch ≠ b then .error .serialization else .ok ({ R with isBatch := b, hasIsBatch := true }, r1)
  else if key = "attributes" then
    match readAttributes r with
    | .error e => .error e
    | .ok (a, r1) => .ok ({ R with attributes := some a }, r1)
  else if key = "data" then
    match preCountData R r with
    | .error e => .error e
    | .ok ((d, b), r1) => .ok ({ R with data := some d, isBatch := b }, r1)
  else
    match parseSkip r with
    | .error e => .error e
    | .ok (_, r1) => .ok (R, r1)

/-- The loop over the keys of the root, lines 635-680. -/
def rootLoop : Nat → Root → Parse Root
  | 0, R, r => .ok (R, r)
  | n + 1, R, r =>
    match parseString r with
    | .error e => .error e
    | .ok (key, r1) =>
      match rootValue key R r1 with
      | .error e => .error e
      | .ok (R', r2) => rootLoop n R' r2

/-- A component of the dataset that the deserialiser announces: `ComponentInfo`, and the places of its data per scenario. -/
structure Announced where
  component : MetaComponent
  perScenario : Int
  total : Int
  indications : Bool
  bytes : List ByteMeta

/-- `component_byte_meta[scenario]`, lines 804-814: the first entry of that name; without one size and offset are zero. -/
def bytesOf (name : String) (scenario : List ByteMeta) : ByteMeta := (scenario.find? fun x => x.component == name).getD ⟨"", 0, [], false⟩

/-- `check_uniform`, lines 832-838. -/
def uniform (counter : List Nat) : Bool := if counter.length < 2 then true else ((counter.dropLast).zip counter.tail).all fun x => x.1 == x.2

/-- `get_uniform_elements_per_scenario`, lines 840-848. -/
def perScenarioOf (counter : List Nat) : Int :=
  if uniform counter then (match counter with | [] => 0 | n :: _ => n) else -1

/-- `count_component`, lines 799-830. -/
def countComponent (data : List (List ByteMeta)) (m : MetaComponent) : Announced :=
  let bytes := data.map (bytesOf m.name)
  let counter := bytes.map ByteMeta.size
  let per := perScenarioOf counter
  ⟨m, per, if per < 0 then (counter.sum : Nat) else per * data.length, bytes.all fun x => !x.hasMap, bytes⟩

/-- `count_data`, lines 779-797: the components that occur, in the order of the meta data. -/
def countData (M : MetaDataset) (data : List (List ByteMeta)) : Except Err (List Announced) :=
  if (data.flatten.all fun x => M.components.any fun m => m.name == x.component) = false then .error .unknownName
  else .ok ((M.components.filter fun m => data.flatten.any fun x => x.component == m.name).map (countComponent data))

/-- `get_attribute` of the meta data for a list of names. -/
def metaAttributes (m : MetaComponent) : List String → Except Err (List MetaAttribute)
  | [] => .ok []
  | s :: l =>
    match m.attributes.find? fun a => a.name == s with
    | none => .error .unknownName
    | some a =>
      match metaAttributes m l with
      | .error e => .error e
      | .ok l' => .ok (a :: l')

/-- `parse_predefined_attributes`, lines 721-740: the component must occur in the data too. -/
def predefined (M : MetaDataset) (announced : List Announced) : List (String × List String) → Except Err (List (String × List MetaAttribute))
  | [] => .ok []
  | (name, l) :: rest =>
    match M.components.find? fun m => m.name == name with
    | none => .error .unknownName
    | some m =>
      match metaAttributes m l with
      | .error e => .error e
      | .ok as =>
        if announced.any (fun x => x.component.name == name) then
          match predefined M announced rest with
          | .error e => .error e
          | .ok r => .ok ((name, as) :: r)
        else .error .dataset

/-- What the deserialiser knows after its construction. -/
structure Parsed where
  dataset : MetaDataset
  isBatch : Bool
  batchSize : Nat
  attributes : List (String × List MetaAttribute)
  components : List Announced

/-- `pre_parse_impl`, lines 594-702. -/
def preParse (M : List MetaDataset) (data : List Token) : Except Err Parsed :=
  match parseMap data with
  | .error e => .error e
  | .ok (n, r) =>
    match rootLoop n ⟨none, none, false, false, none, none⟩ r with
    | .error e => .error e
    | .ok (R, _) =>
      match R.version, R.type, R.hasIsBatch, R.attributes, R.data with
      | some _, some type, true, some attributes, some d =>
        match M.find? fun m => m.name == type with
        | none => .error .unknownName
        | some m =>
          match countData m d with
          | .error e => .error e
          | .ok cs =>
            match predefined m cs attributes with
            | .error e => .error e
            | .ok as => .ok ⟨m, R.isBatch, d.length, as, cs⟩
      | _, _, _, _, _ => .error .serialization

/-- The memory of a component. -/
abbrev Memory := Nat → String → Cell

/-- Assignment of one attribute of one element. -/
def put (mem : Memory) (i : Nat) (a : String) (x : Cell) : Memory := fun j b => if j = i ∧ b = a then x else mem j b

/-- The number of a token, for a double: `ValueVisitor<double>`, lines 348-374. -/
def number : Token → Option Real
  | .int n => some (.fin n)
  | .float x => some x
  | _ => none

/-- One item of a three-phase value: nil keeps the value, lines 376-429. -/
def phase (t : Token) (old : Option Real) : Except Err (Option Real) :=
  match t with
  | .nil => .ok old
  | _ =>
    match number t with
    | some x => .ok (some x)
    | none => .error .serialization

/-- Whether an integer fits the type: `std::in_range`. -/
def fits : CType → Int → Bool
  | .int8, n => decide (-128 ≤ n) && decide (n ≤ 127)
  | _, n => decide (-2147483648 ≤ n) && decide (n ≤ 2147483647)

/-- `ValueVisitor<T>`, lines 322-429: nil keeps the value that is there. -/
def parseValue (t : CType) (old : Cell) : Parse Cell
  | .nil :: r => .ok (old, r)
  | x :: r =>
    match t, old with
    | .double, .real _ =>
      match number x with
      | some y => .ok (.real (some y), r)
      | none => .error .serialization
    | .double3, .three a b c =>
      match x, r with
      | .array 3, t1 :: t2 :: t3 :: r' =>
        match phase t1 a, phase t2 b, phase t3 c with
        | .ok a', .ok b', .ok c' => .ok (.three a' b' c', r')
        | _, _, _ => .error .serialization
      | _, _ => .error .serialization
    | .int8, .int _ | .int32, .int _ =>
      match x with
      | .int n => if fits t n then .ok (.int n, r) else .error .serialization
      | _ => .error .serialization
    | _, _ => .error .undefined
  | [] => .error .serialization

/-- `parse_attribute`, lines 1051-1071: the value is parsed into its place. -/
def parseAttribute (mem : Memory) (i : Nat) (a : MetaAttribute) : Parse Memory := fun r =>
  match parseValue a.ctype (mem i a.name) r with
  | .error e => .error e
  | .ok (x, r') => .ok (put mem i a.name x, r')

/-- The buffers that the caller has set for a component: none, an array of structs, or attribute buffers. -/
inductive Target
  | absent
  | row
  | columns (l : List MetaAttribute)

/-- The attribute of the target with this name: any attribute of the component in an array of structs (`find_attribute`), the attribute buffer of
that name otherwise. -/
def targetAttribute (m : MetaComponent) : Target → String → Option MetaAttribute
  | .absent, _ => none
  | .row, s => m.attributes.find? fun a => a.name == s
  | .columns l, s => l.find? fun a => a.name == s

/-- `parse_map_element`, lines 991-1025: unknown attributes are skipped. -/
def parseMapElement (m : MetaComponent) (target : Target) (i : Nat) : Nat → Memory → Parse Memory
  | 0, mem, r => .ok (mem, r)
  | n + 1, mem, r =>
    match parseString r with
    | .error e => .error e
    | .ok (s, r1) =>
      match targetAttribute m target s with
      | some a =>
        match parseAttribute mem i a r1 with
        | .error e => .error e
        | .ok (mem', r2) => parseMapElement m target i n mem' r2
      | none =>
        match parseSkip r1 with
        | .error e => .error e
        | .ok (_, r2) => parseMapElement m target i n mem r2

/-- The attributes of a list element, lines 1035-1047: what the target does not have is skipped. -/
def parseList (m : MetaComponent) (target : Target) (i : Nat) : List MetaAttribute → Memory → Parse Memory
  | [], mem, r => .ok (mem, r)
  | a :: l, mem, r =>
    match targetAttribute m target a.name with
    | some b =>
      match parseAttribute mem i b r with
      | .error e => .error e
      | .ok (mem', r1) => parseList m target i l mem' r1
    | none =>
      match parseSkip r with
      | .error e => .error e
      | .ok (_, r1) => parseList m target i l mem r1

/-- `reordered_attribute_buffers` is empty for a columnar target, `serialization/common.hpp` lines 38-63: none of the predefined attributes is in the
target. -/
def noneListed (m : MetaComponent) (target : Target) (attributes : List MetaAttribute) : Bool :=
  match target with
  | .columns _ => attributes.all fun a => (targetAttribute m target a.name).isNone
  | _ => false

/-- `parse_element`, lines 963-989, with `parse_array_element`, lines 1027-1049. -/
def parseElement (m : MetaComponent) (target : Target) (attributes : List MetaAttribute) (i : Nat) (mem : Memory) : Parse Memory := fun r =>
  match parseMapArray r with
  | .error e => .error e
  | .ok ((n, true), r1) => parseMapElement m target i n mem r1
  | .ok ((n, false), r1) =>
    if noneListed m target attributes then
      match parseSkip r with
      | .error e => .error e
      | .ok (_, r2) => .ok (mem, r2)
    else if n ≠ attributes.length then .error .serialization
    else parseList m target i attributes mem r1

/-- The elements of a scenario, from `i` on, lines 954-958. -/
def parseElements (m : MetaComponent) (target : Target) (attributes : List MetaAttribute) : Nat → Nat → Memory → Parse Memory
  | 0, _, mem, r => .ok (mem, r)
  | n + 1, i, mem, r =>
    match parseElement m target attributes i mem r with
    | .error e => .error e
    | .ok (mem', r') => parseElements m target attributes n (i + 1) mem' r'

/-- `parse_scenario`, lines 932-961. -/
def parseScenario (m : MetaComponent) (target : Target) (attributes : List MetaAttribute) (first : Nat) (bytes : ByteMeta) (mem : Memory) :
    Except Err Memory :=
  if bytes.size = 0 then .ok mem
  else if noneListed m target attributes = true ∧ bytes.hasMap = false then .ok mem
  else
    match parseArray bytes.offset with
    | .error e => .error e
    | .ok (_, r) =>
      match parseElements m target attributes bytes.size first mem r with
      | .error e => .error e
      | .ok (mem', _) => .ok mem'

/-- `transform_inclusive_scan` behind a zero: the index pointer, lines 876-884. -/
def scan : Nat → List Nat → List Int
  | acc, [] => [(acc : Int)]
  | acc, n :: l => (acc : Int) :: scan (acc + n) l

/-- The begin of a scenario, lines 913-914. -/
def scenarioOffset (per : Int) (indptr : List Int) (s : Nat) : Nat := (if per < 0 then indptr.getD s 0 else s * per).toNat

/-- The loop over the scenarios, lines 911-927. -/
def parseScenarios (m : MetaComponent) (target : Target) (attributes : List MetaAttribute) (per : Int) (indptr : List Int) :
    Nat → List ByteMeta → Memory → Except Err Memory
  | _, [], mem => .ok mem
  | s, b :: l, mem =>
    match parseScenario m target attributes (scenarioOffset per indptr s) b mem with
    | .error e => .error e
    | .ok mem' => parseScenarios m target attributes per indptr (s + 1) l mem'

/-- The attributes that the target has. -/
def targetAttributes (m : MetaComponent) : Target → List MetaAttribute
  | .absent => []
  | .row => m.attributes
  | .columns l => l

/-- `set_nan`, lines 1103-1118. -/
def setNan (m : MetaComponent) (target : Target) (total : Nat) (mem : Memory) : Memory := fun i s =>
  match (targetAttributes m target).find? fun a => a.name == s with
  | some a => if i < total then nanCell a.ctype else mem i s
  | none => mem i s

/-- `parse_component`, lines 850-930, without the index pointer. -/
def parseComponent (attributes : List MetaAttribute) (x : Announced) (target : Target) (mem : Memory) : Except Err Memory :=
  match target with
  | .absent => .ok mem
  | .columns [] => .ok mem
  | _ =>
    let mem0 := setNan x.component target x.total.toNat mem
    if x.indications = true ∧ noneListed x.component target attributes = true then .ok mem0
    else parseScenarios x.component target attributes x.perScenario (scan 0 (x.bytes.map ByteMeta.size)) 0 x.bytes mem0

/-- `attributes_.find(info.component)`, lines 886-893: the last entry of that name (`attributes_[component] = ...` overwrites). -/
def predefinedOf (as : List (String × List MetaAttribute)) (name : String) : List MetaAttribute := (as.reverse.lookup name).getD []

/-- Whether the caller has set a buffer: a component without one is not parsed, lines 851-855. -/
def Target.given : Target → Bool
  | .absent => false
  | .row => true
  | .columns l => !l.isEmpty

/-- The attribute buffers of the target. -/
def Target.columns? : Target → Option (List MetaAttribute)
  | .row => none
  | .columns l => some l
  | .absent => some []

/-- One component of `parse()`, lines 505-507, with the target and the initial memory of its buffers: the filled buffer. The index pointer is filled if
a buffer is set and the numbers of elements are not uniform. -/
def parseTo (P : Parsed) (x : Announced) (target : Target) (mem : Memory) : Except Err Component :=
  match parseComponent (predefinedOf P.attributes x.component.name) x target mem with
  | .error e => .error e
  | .ok mem' =>
    .ok ⟨x.component, x.perScenario, x.total, if target.given = true ∧ x.perScenario < 0 then scan 0 (x.bytes.map ByteMeta.size) else [],
      target.columns?, mem'⟩

/-- `parse()`, lines 502-512, with the buffers of every component. -/
def parseAll (P : Parsed) (target : String → Target) (mem : String → Memory) : List Announced → Except Err (List Component)
  | [] => .ok []
  | x :: l =>
    match parseTo P x (target x.component.name) (mem x.component.name) with
    | .error e => .error e
    | .ok c =>
      match parseAll P target mem l with
      | .error e => .error e
      | .ok cs => .ok (c :: cs)

def parse (P : Parsed) (target : String → Target) (mem : String → Memory) : Except Err (List Component) := parseAll P target mem P.components

end PGM.Serial
