import Verif.Dataset.Model
import Verif.Update.Component

/-!
# Datasets for the results of a calculation: model (C67)

`X/` is `power_grid_model_c/power_grid_model_cpp/include/power_grid_model_cpp/`. `X/dataset.hpp` lines 263-408: the second constructor of `OwningDataset`, which makes a dataset with its own memory for the results
of a calculation, from the dataset that was the input. The operations on datasets are those of `Verif.Dataset.Model`; that errors of the C API become exceptions is C66.

Simplifications. As in `Verif.Dataset.Model`. Pointers to the meta data of components and attributes are their names, so a filter cannot name an attribute of another component. A `std::map` is a list of pairs and a
`std::set` a list, in the order of iteration. The vectors of `OwningMemory` (lines 256-260) are one list of the pieces of memory in the order of allocation; moving them when a vector grows does not change
addresses. Memory never runs out. Whether memory for no elements has an address is left open, `Heap`.
-/

namespace PGM.ResultSet

open PGM.Datasets PGM.Update

/-- `PGM_CalculationType`. -/
inductive Calculation where
  | powerFlow | stateEstimation | shortCircuit
  deriving DecidableEq, Repr

/-- The types of datasets for results. -/
inductive OutputType where
  | symOutput | asymOutput | scOutput
  deriving DecidableEq, Repr

/-- `get_output_type`, `X/dataset.hpp` lines 263-274. -/
def outputType (calculation : Calculation) (sym : Bool) : OutputType :=
  if calculation = .shortCircuit then .scOutput else if sym then .symOutput else .asymOutput

/-- `get_irrelevant_components`, `X/dataset.hpp` lines 276-300. -/
def irrelevant : Calculation → List CompType
  | .powerFlow => [.symVoltageSensor, .symCurrentSensor, .symPowerSensor, .asymVoltageSensor, .asymCurrentSensor, .asymPowerSensor, .fault]
  | .stateEstimation => [.fault, .tapRegulator, .voltageRegulator]
  | .shortCircuit => [.symVoltageSensor, .symCurrentSensor, .symPowerSensor, .asymVoltageSensor, .asymCurrentSensor, .asymPowerSensor, .tapRegulator, .voltageRegulator]

/-- Fixed data: the meta data, the names of the types of components, the first block of memory that is not in use, and whether memory for no elements has an address (`std::aligned_alloc`, `C/buffer.cpp` line 46;
`std::vector::data`, `X/dataset.hpp` line 240). -/
structure Heap where
  info : OutputType → Meta
  name : CompType → Nat
  free : Nat
  emptyBuffer : Bool
  emptyVector : Bool

/-- A piece of memory: its block, the component and, for a column, the attribute it was made for, and the number of elements. -/
structure Memory where
  block : Nat
  component : Nat
  column : Option Nat
  size : Int
  deriving DecidableEq, Repr

/-- `OwningDataset`, `X/dataset.hpp` lines 301-303. -/
structure Owning where
  set : Dataset
  storage : List Memory

/-- Exceptions: `PowerGridError` of line 378, and those of the C API. -/
inductive Fail where
  | variableSize
  | api (e : Err)
  deriving DecidableEq, Repr

/-- The filter: the selected components, and for each of them the selected attributes. -/
abbrev Filter := List (Nat × List Nat)

/-- `detail::contains`, `X/dataset.hpp` lines 28-31. -/
def contains (F : Filter) (c : Nat) : Bool := F.any fun x => x.1 == c

/-- Lines 383-386: the attributes of the component in the filter, or none. -/
def attributesOf (F : Filter) (c : Nat) : List Nat :=
  match F.find? fun x => x.1 == c with
  | some x => x.2
  | none => []

/-- The address of new memory. -/
def address (H : Heap) (o : Owning) (size : Int) (empty : Bool) : Option Ptr :=
  if size = 0 ∧ empty = false then none else some ⟨H.free + o.storage.length, 0⟩

/-- `Buffer(component_meta, size)` and `add_buffer`, lines 389-392. -/
def addRow (H : Heap) (o : Owning) (c : Nat) (e size : Int) : Except Fail Owning :=
  match addBuffer o.set c e size none (address H o size H.emptyBuffer) with
  | .error x => .error (.api x)
  | .ok D => .ok ⟨D, o.storage ++ [⟨H.free + o.storage.length, c, none, size⟩]⟩

/-- One attribute, lines 400-403. -/
def addColumn (H : Heap) (c : Nat) (size : Int) (o : Owning) (a : Nat) : Except Fail Owning :=
  match addAttribute o.set c a (address H o size H.emptyVector) with
  | .error x => .error (.api x)
  | .ok D => .ok ⟨D, o.storage ++ [⟨H.free + o.storage.length, c, some a, size⟩]⟩

/-- The loop over the attributes, lines 399-404. -/
def addColumns (H : Heap) (c : Nat) (size : Int) : List Nat → Owning → Except Fail Owning
  | [], o => .ok o
  | a :: l, o =>
    match addColumn H c size o a with
    | .error x => .error x
    | .ok o' => addColumns H c size l o'

/-- Lines 394-404: `add_buffer` with a null pointer, and the attributes. -/
def addColumnar (H : Heap) (o : Owning) (c : Nat) (e size : Int) (attrs : List Nat) : Except Fail Owning :=
  match addBuffer o.set c e size none none with
  | .error x => .error (.api x)
  | .ok D => addColumns H c size attrs { o with set := D }

/-- One component of the reference, lines 361-405. -/
def addResult (H : Heap) (calculation : Calculation) (sym : Bool) (batch : Int) (F : Filter) (o : Owning) (c : Component) : Except Fail Owning :=
  if (H.info (outputType calculation sym)).hasComponent c.name = false then .error (.api .unknownName)
  else if F ≠ [] ∧ contains F c.name = false then .ok o
  else if ((irrelevant calculation).map H.name).contains c.name then .ok o
  else if c.perScenario < 0 then .error .variableSize
  else if attributesOf F c.name = [] then addRow H o c.name c.perScenario (c.perScenario * batch)
  else addColumnar H o c.name c.perScenario (c.perScenario * batch) (attributesOf F c.name)

/-- The loop over the components, lines 360-406. -/
def addResults (H : Heap) (calculation : Calculation) (sym : Bool) (batch : Int) (F : Filter) : List Component → Owning → Except Fail Owning
  | [], o => .ok o
  | c :: l, o =>
    match addResult H calculation sym batch F o c with
    | .error x => .error x
    | .ok o' => addResults H calculation sym batch F l o'

/-- The constructor, lines 347-407. -/
def resultSet (H : Heap) (ref : Dataset) (calculation : Calculation) (sym isBatch : Bool) (batch : Int) (F : Filter) : Except Fail Owning :=
  match create (H.info (outputType calculation sym)) isBatch batch with
  | .error x => .error (.api x)
  | .ok D => addResults H calculation sym batch F ref.components ⟨D, []⟩

end PGM.ResultSet
