import Mathlib.Data.List.Basic

/-!
# Datasets: model (C35)

`P/auxiliary/dataset.hpp`: the constructor, the checks of buffers that are added, the spans of the scenarios, individual scenarios and slices.

Simplifications: names of components and attributes are numbers, and the meta data is the set of names that exist; integers are unbounded; a
pointer is an allocation and an offset counted in elements of the type that it points to; the vectors `component_info` and `buffers_`, which
`add_component_info_impl` extends together, are one list of pairs. The release build is modelled: assertions are not evaluated, and what is then
read outside of an array, or a span whose end is before its begin, is the outcome `undefined`. Writable datasets, whose index pointers the
deserialiser fills in, and the pointer to the next dimension (C46) are not part of this model. -/

namespace PGM.Datasets

/-- A pointer into an array. -/
structure Ptr where
  block : Nat
  offset : Int
  deriving DecidableEq, Repr

/-- `advance_ptr`, `P/auxiliary/meta_data.hpp`: the pointer `n` elements further. -/
def Ptr.advance (p : Ptr) (n : Int) : Ptr := ⟨p.block, p.offset + n⟩

/-- `DatasetError`, errors of the meta data, undefined behaviour. -/
inductive Err
  | dataset | unknownName | undefined
  deriving DecidableEq, Repr

/-- `AttributeBuffer`, lines 68-73: the attribute and its data (`none`: null pointer). -/
structure AttributeBuffer where
  name : Nat
  data : Option Ptr
  deriving DecidableEq, Repr

/-- One component: `ComponentInfo`, lines 49-59, and `Buffer`, lines 214-222 (`indptr = none`: the empty span). -/
structure Component where
  name : Nat
  perScenario : Int
  total : Int
  data : Option Ptr
  attributes : List AttributeBuffer
  indptr : Option (List Int)
  deriving DecidableEq, Repr

/-- What the meta data knows of a dataset type: its components and the attributes of each. -/
structure Meta where
  hasComponent : Nat → Bool
  hasAttribute : Nat → Nat → Bool

/-- `Dataset`, lines 198-582. -/
structure Dataset where
  info : Meta
  isBatch : Bool
  batchSize : Nat
  components : List Component

/-- The constructor, lines 232-245. -/
def create (M : Meta) (isBatch : Bool) (batchSize : Int) : Except Err Dataset :=
  if batchSize < 0 then .error .dataset
  else if isBatch = false ∧ batchSize ≠ 1 then .error .dataset
  else .ok ⟨M, isBatch, batchSize.toNat, []⟩

/-- `find_component`, lines 362-374 (`none`: `invalid_index`). -/
def find (D : Dataset) (name : Nat) : Option Nat := D.components.findIdx? fun c => c.name == name

/-- `is_dense`, line 311. -/
def isDense (c : Component) : Bool := c.indptr.isNone

/-- `is_row_based` and `is_columnar`, lines 281 and 292-294 (without `with_attribute_buffers`). -/
def isColumnar (c : Component) : Bool := c.data.isNone

/-- `check_uniform_integrity`, lines 588-593. -/
def checkUniform (D : Dataset) (perScenario total : Int) : Except Err Unit :=
  if 0 ≤ perScenario ∧ perScenario * D.batchSize ≠ total then .error .dataset else .ok ()

/-- `std::ranges::adjacent_find(indptr, std::greater{}) != end`. -/
def decreases : List Int → Bool
  | a :: b :: l => decide (b < a) || decreases (b :: l)
  | _ => false

/-- `check_non_uniform_integrity<immutable_t>`, lines 595-615: the index pointer is the memory that the caller gave; its first `batch_size + 1`
entries are read. -/
def checkNonUniform (D : Dataset) (perScenario total : Int) (indptr : Option (List Int)) : Except Err Unit :=
  if perScenario < 0 then
    match indptr with
    | none => .error .dataset
    | some p =>
      if p.length < D.batchSize + 1 then .error .undefined
      else if (p.take (D.batchSize + 1)).head? ≠ some 0 ∨ (p.take (D.batchSize + 1)).getLast? ≠ some total then .error .dataset
      else if decreases (p.take (D.batchSize + 1)) then .error .dataset
      else .ok ()
  else if indptr.isSome then .error .dataset
  else .ok ()

/-- `add_component_info_impl`, lines 617-626, with the buffer that `add_buffer` puts into the new place. -/
def addComponent (D : Dataset) (c : Component) : Except Err Dataset :=
  if (find D c.name).isSome then .error .dataset
  else
    match checkUniform D c.perScenario c.total with
    | .error e => .error e
    | .ok _ => if D.info.hasComponent c.name then .ok { D with components := D.components ++ [c] } else .error .unknownName

/-- `add_buffer`, lines 399-414. -/
def addBuffer (D : Dataset) (name : Nat) (perScenario total : Int) (indptr : Option (List Int)) (data : Option Ptr) : Except Err Dataset :=
  match checkNonUniform D perScenario total indptr with
  | .error e => .error e
  | .ok _ => addComponent D ⟨name, perScenario, total, data, [], indptr.map fun p => p.take (D.batchSize + 1)⟩

/-- `add_attribute_buffer_impl`, lines 628-646. -/
def addAttribute (D : Dataset) (name attr : Nat) (data : Option Ptr) : Except Err Dataset :=
  match find D name with
  | none => .error .dataset
  | some i =>
    match D.components[i]? with
    | none => .error .undefined
    | some c =>
      if isColumnar c = false then .error .dataset
      else if c.attributes.any fun a => a.name == attr then .error .dataset
      else if 0 < c.total ∧ data = none then .error .dataset
      else if D.info.hasAttribute name attr then
        .ok { D with components := D.components.set i { c with attributes := c.attributes ++ [⟨attr, data⟩] } }
      else .error .unknownName

/-- The conversion constructor, lines 247-264: a copy that refers to the same buffers. -/
def convert (D : Dataset) : Dataset := { D with components := D.components.map fun c => { c with attributes := c.attributes.map fun a => ⟨a.name, a.data⟩ } }

/-- Where an element of a component is: a place in the array of structs, or one place in every attribute array (`ColumnarAttributeRange::Proxy`,
lines 82-137). -/
inductive Place
  | row (p : Ptr)
  | column (l : List (Nat × Option Ptr))
  deriving DecidableEq, Repr

/-- Element `i` of the component: `ptr + i`, or the proxy with `idx_ = i`. -/
def place (c : Component) (i : Int) : Place :=
  match c.data with
  | some p => .row (p.advance i)
  | none => .column (c.attributes.map fun a => (a.name, a.data.map fun p => p.advance i))

/-- The range from the iterator `begin + first` to `begin + last`. -/
def range (c : Component) (first last : Int) : Except Err (List Place) :=
  if last < first then .error .undefined else .ok ((List.range (last - first).toNat).map fun k : Nat => place c (first + k))

/-- `get_span_impl`, lines 648-660. -/
def spanOf (c : Component) (scenario : Int) : Except Err (List Place) :=
  if scenario < 0 then range c 0 c.total
  else if c.perScenario < 0 then
    match c.indptr with
    | none => .error .undefined
    | some p =>
      match p[scenario.toNat]?, p[scenario.toNat + 1]? with
      | some a, some b => range c a b
      | _, _ => .error .undefined
  else range c (c.perScenario * scenario) (c.perScenario * (scenario + 1))

/-- `get_buffer_span` and `get_columnar_buffer_span`, lines 459-484, with `get_buffer_view_impl`, lines 662-687, by the choice of
`for_each_component`, lines 555-564. A scenario that the dataset does not have is read outside of the buffer. -/
def getSpan (D : Dataset) (name : Nat) (scenario : Int) : Except Err (List Place) :=
  if D.isBatch = false ∧ 0 < scenario then .error .dataset
  else if D.batchSize ≤ scenario then .error .undefined
  else
    match find D name with
    | none => .ok []
    | some i =>
      match D.components[i]? with
      | none => .error .undefined
      | some c => spanOf c scenario

/-- `is_uniform`, lines 335-344. -/
def isUniform (c : Component) : Except Err Bool :=
  match c.indptr with
  | none => .ok true
  | some p =>
    match p with
    | a :: b :: l => .ok (((a :: b :: l).zip (b :: l)).all fun x => x.2 - x.1 == b - a)
    | _ => .error .undefined

/-- `uniform_elements_per_scenario`, lines 352-360. -/
def uniformElements (c : Component) : Except Err Int :=
  match c.indptr with
  | none => .ok c.perScenario
  | some p =>
    match p with
    | a :: b :: _ => .ok (b - a)
    | _ => .error .undefined

/-- The size and the offset of a scenario in `get_individual_scenario`, lines 508-511. -/
def extent (c : Component) (scenario : Nat) : Except Err (Int × Int) :=
  if 0 ≤ c.perScenario then .ok (c.perScenario, c.perScenario * scenario)
  else
    match c.indptr with
    | none => .error .undefined
    | some p =>
      match p[scenario]?, p[scenario + 1]? with
      | some a, some b => .ok (b - a, a)
      | _, _ => .error .undefined

/-- One component of `get_individual_scenario`, lines 507-522. -/
def individualComponent (c : Component) (scenario : Nat) : Except Err Component :=
  match extent c scenario with
  | .error e => .error e
  | .ok (size, offset) =>
    .ok { c with
      total := size
      perScenario := size
      indptr := none
      data := c.data.map fun p => p.advance offset
      attributes := if isColumnar c then c.attributes.map fun a => ⟨a.name, a.data.map fun p => p.advance offset⟩ else c.attributes }

/-- A loop over the components that may fail. -/
def mapComponents (f : Component → Except Err Component) : List Component → Except Err (List Component)
  | [] => .ok []
  | c :: l =>
    match f c, mapComponents f l with
    | .ok c', .ok l' => .ok (c' :: l')
    | .error e, _ => .error e
    | .ok _, .error e => .error e

/-- `get_individual_scenario`, lines 499-525. -/
def individual (D : Dataset) (scenario : Nat) : Except Err Dataset :=
  if D.batchSize ≤ scenario then .error .undefined
  else
    match mapComponents (fun c => individualComponent c scenario) D.components with
    | .error e => .error e
    | .ok l => .ok { D with isBatch := false, batchSize := 1, components := l }

/-- `get_slice_scenario`, lines 528-553; `node` is the name of the component that the empty slice gets. -/
def slice (D : Dataset) (node first last : Nat) : Except Err Dataset :=
  if last < first ∨ D.batchSize < last then .error .undefined
  else if first = last then
    match create D.info true 0 with
    | .error e => .error e
    | .ok E => addBuffer E node 0 0 none none
  else
    match individual D first with
    | .error e => .error e
    | .ok E =>
      .ok { E with
        isBatch := true
        batchSize := last - first
        components := E.components.map fun c => { c with total := c.perScenario * ((last - first : Nat) : Int) } }

end PGM.Datasets
