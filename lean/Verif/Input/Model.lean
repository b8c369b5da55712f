import Verif.Container.Model
import Verif.Update.Component
import Mathlib.Data.List.Dedup

/-!
# Model of building the component container from an input dataset

`P/main_core/input.hpp` (`add_component`), `P/main_model_impl.hpp` lines 117-136 (`add_components`) and
`P/all_components.hpp` (order of the types and class hierarchy).

Simplifications: one record `Elem` holds the attributes of all input structures that are used while references are
resolved; a type reads only its own attributes. `ctor` is the outcome of the constructor of the component given the
rated voltages of the nodes it is attached to; it is used for the types whose constructor can throw (branches,
three-winding transformers, faults). Enumerations read from the input are integers, because a dataset may hold any
value. Row and columnar buffers give the same elements (`C35`), so a dataset is a list of elements per type.
-/

namespace PGM.Input

open PGM.Container PGM.Update

variable {K : Type}

/-- The attributes of the input structures used by `add_component`: `id`; `u_rated` of a node; `from_node`/`to_node`,
`node_1..3` or `node` (`n1`, `n2`, `n3`); `measured_object`, `fault_object` or `regulated_object` (`object`);
`measured_terminal_type` (`terminal`); `control_side` (`side`); outcome of the constructor (`ctor`). -/
structure Elem (K : Type) where
  id : Int
  uRated : K
  n1 : Int
  n2 : Int
  n3 : Int
  object : Int
  terminal : Int
  side : Int
  ctor : List K → Except String Unit

/-- A stored component: its type and the data it was built from. -/
structure Comp (K : Type) where
  type : CompType
  elem : Elem K

/-- The position of a type in `AllComponents`, `P/all_components.hpp` lines 37-40 (`get_type_idx`,
`get_component_type_index`). -/
def group : CompType → Nat
  | .node => 0 | .line => 1 | .asymLine => 2 | .link => 3 | .genericBranch => 4 | .transformer => 5
  | .threeWindingTransformer => 6 | .shunt => 7 | .source => 8 | .symGen => 9 | .asymGen => 10 | .symLoad => 11
  | .asymLoad => 12 | .symPowerSensor => 13 | .asymPowerSensor => 14 | .symVoltageSensor => 15
  | .asymVoltageSensor => 16 | .symCurrentSensor => 17 | .asymCurrentSensor => 18 | .fault => 19
  | .tapRegulator => 20 | .voltageRegulator => 21

/-- The gettable types used by `add_component`, `P/all_components.hpp` lines 42-44. -/
inductive Gettable where
  | node | branch | branch3 | shunt | source | genericLoad | genericGenerator | transformer | threeWindingTransformer
deriving DecidableEq, Repr

/-- Which storageable types derive from a gettable type: the class hierarchy of `P/component/*.hpp`. -/
def isBase : Gettable → Nat → Bool
  | .node, g => g == 0
  | .branch, g => g == 1 || g == 2 || g == 3 || g == 4 || g == 5
  | .branch3, g => g == 6
  | .shunt, g => g == 7
  | .source, g => g == 8
  | .genericGenerator, g => g == 9 || g == 10
  | .genericLoad, g => g == 11 || g == 12
  | .transformer, g => g == 5
  | .threeWindingTransformer, g => g == 6

/-- Exceptions of `add_component`. -/
inductive AddErr where
  | container (e : Container.Err)
  | invalidMeasuredObject
  | missingCaseForEnum (value : Int)
  | invalidRegulatedObject (id : Int)
  | duplicativelyRegulatedObject
deriving DecidableEq, Repr

abbrev Res (α : Type) := Except AddErr α

/-- `get_component<T>(components, id)` and `get_component<T>(components, idx)`,
`P/main_core/container_queries.hpp` lines 58-68. -/
def getById (t : Gettable) (c : Container (Comp K)) (id : Int) : Res (Comp K) :=
  match getItemById isBase t c id with
  | .ok x => .ok x
  | .error e => .error (.container e)

def getByIdx (t : Gettable) (c : Container (Comp K)) (idx : Idx2D) : Res (Comp K) :=
  match getItem isBase t c idx with
  | .ok x => .ok x
  | .error e => .error (.container e)

/-- `get_component_idx_by_id(components, id)`, lines 38-40. -/
def idxById (c : Container (Comp K)) (id : Int) : Res Idx2D :=
  match getIdxById c id with
  | .ok x => .ok x
  | .error e => .error (.container e)

/-- `get_component<Node>(components, id).u_rated()`. -/
def nodeURated (c : Container (Comp K)) (id : Int) : Res K := do
  let n ← getById .node c id
  pure n.elem.uRated

/-- `emplace_component<Component>(components, id, args...)`. -/
def emplaceComp (c : Container (Comp K)) (t : CompType) (e : Elem K) (ctor : Except String Unit) :
    Res (Container (Comp K)) :=
  match emplace c e.id (group t) (ctor.map fun _ => (⟨t, e⟩ : Comp K)) with
  | .ok c' => .ok c'
  | .error err => .error (.container err)

/-- The kinds of component distinguished by the `if constexpr` chain, `P/main_core/input.hpp` lines 66-231. -/
inductive Kind where
  | node | branch | branch3 | appliance | voltageSensor | powerSensor | currentSensor | fault | tapRegulator
  | voltageRegulator
deriving DecidableEq, Repr

def kind : CompType → Kind
  | .node => .node
  | .line | .asymLine | .link | .genericBranch | .transformer => .branch
  | .threeWindingTransformer => .branch3
  | .shunt | .source | .symGen | .asymGen | .symLoad | .asymLoad => .appliance
  | .symPowerSensor | .asymPowerSensor => .powerSensor
  | .symVoltageSensor | .asymVoltageSensor => .voltageSensor
  | .symCurrentSensor | .asymCurrentSensor => .currentSensor
  | .fault => .fault
  | .tapRegulator => .tapRegulator
  | .voltageRegulator => .voltageRegulator

/-- The check that a power or current sensor is not placed at a link, `P/main_core/input.hpp` lines 89-93 and
133-137. -/
def checkNotLink (c : Container (Comp K)) (obj : Int) : Res Unit := do
  let idx ← idxById c obj
  if idx.group = group .link then .error .invalidMeasuredObject else pure ()

/-- The `switch` over `measured_terminal_type` of a power sensor, lines 96-128. -/
def powerSensorSwitch (c : Container (Comp K)) (obj terminal : Int) : Res Unit :=
  if terminal = 0 ∨ terminal = 1 then (getById .branch c obj).map fun _ => ()
  else if terminal = 6 ∨ terminal = 7 ∨ terminal = 8 then (getById .branch3 c obj).map fun _ => ()
  else if terminal = 3 then (getById .shunt c obj).map fun _ => ()
  else if terminal = 2 then (getById .source c obj).map fun _ => ()
  else if terminal = 4 then (getById .genericLoad c obj).map fun _ => ()
  else if terminal = 5 then (getById .genericGenerator c obj).map fun _ => ()
  else if terminal = 9 then (getById .node c obj).map fun _ => ()
  else .error (.missingCaseForEnum terminal)

/-- The node of the terminal measured by a current sensor, lines 138-158. -/
def currentSensorNode (c : Container (Comp K)) (obj terminal : Int) : Res Int :=
  if terminal = 0 then (getById .branch c obj).map fun b => b.elem.n1
  else if terminal = 1 then (getById .branch c obj).map fun b => b.elem.n2
  else if terminal = 6 then (getById .branch3 c obj).map fun b => b.elem.n1
  else if terminal = 7 then (getById .branch3 c obj).map fun b => b.elem.n2
  else if terminal = 8 then (getById .branch3 c obj).map fun b => b.elem.n3
  else .error (.missingCaseForEnum terminal)

/-- The node at the control side of a tap regulator, lines 173-205. -/
def regulatedTerminal (c : Container (Comp K)) (idx : Idx2D) (obj side : Int) : Res Int :=
  if idx.group = group .transformer then do
    let x ← getByIdx .transformer c idx
    if side = 1 then pure x.elem.n2 else if side = 0 then pure x.elem.n1 else .error (.missingCaseForEnum side)
  else if idx.group = group .threeWindingTransformer then do
    let x ← getByIdx .threeWindingTransformer c idx
    if side = 0 then pure x.elem.n1
    else if side = 1 then pure x.elem.n2
    else if side = 2 then pure x.elem.n3
    else .error (.missingCaseForEnum side)
  else .error (.invalidRegulatedObject obj)

/-- One pass of the loop of `add_component`, `P/main_core/input.hpp` lines 60-232: resolve the references,
then insert. -/
def addPlain (c : Container (Comp K)) (t : CompType) (e : Elem K) : Res (Container (Comp K)) :=
  match kind t with
  | .node => emplaceComp c t e (.ok ())
  | .branch => do
    let u1 ← nodeURated c e.n1
    let u2 ← nodeURated c e.n2
    emplaceComp c t e (e.ctor [u1, u2])
  | .branch3 => do
    let u1 ← nodeURated c e.n1
    let u2 ← nodeURated c e.n2
    let u3 ← nodeURated c e.n3
    emplaceComp c t e (e.ctor [u1, u2, u3])
  | .appliance => do
    let _ ← nodeURated c e.n1
    emplaceComp c t e (.ok ())
  | .voltageSensor => do
    let _ ← nodeURated c e.object
    emplaceComp c t e (.ok ())
  | .powerSensor => do
    checkNotLink c e.object
    powerSensorSwitch c e.object e.terminal
    emplaceComp c t e (.ok ())
  | .currentSensor => do
    checkNotLink c e.object
    let n ← currentSensorNode c e.object e.terminal
    let _ ← nodeURated c n
    emplaceComp c t e (.ok ())
  | .fault => do
    let _ ← nodeURated c e.object
    emplaceComp c t e (e.ctor [])
  | .tapRegulator => do
    let idx ← idxById c e.object
    let n ← regulatedTerminal c idx e.object e.side
    let _ ← nodeURated c n
    emplaceComp c t e (.ok ())
  | .voltageRegulator => do
    let idx ← idxById c e.object
    if idx.group ≠ group .symGen ∧ idx.group ≠ group .asymGen ∧ idx.group ≠ group .symLoad ∧
        idx.group ≠ group .asymLoad then
      .error (.invalidRegulatedObject e.object)
    else emplaceComp c t e (.ok ())

/-- Whether the type pushes to `regulated_objects`, lines 171 and 219. -/
def isRegulator (t : CompType) : Bool := t == .tapRegulator || t == .voltageRegulator

/-- One pass of the loop with the local `regulated_objects` (lines 58, 171, 219). The entry pushed for a regulator is
the position of its regulated object. -/
def addStep (t : CompType) (s : Container (Comp K) × List Idx2D) (e : Elem K) :
    Res (Container (Comp K) × List Idx2D) :=
  if isRegulator t then do
    let idx ← idxById s.1 e.object
    let c ← addPlain s.1 t e
    pure (c, s.2 ++ [idx])
  else do
    let c ← addPlain s.1 t e
    pure (c, s.2)

/-- `add_component<Component>`, lines 49-242: the loop, then the check on objects that are regulated twice. The
size of the `std::unordered_set` built from the list is the number of its different entries. -/
def addComponent (t : CompType) (c : Container (Comp K)) (es : List (Elem K)) : Res (Container (Comp K)) := do
  let s ← es.foldlM (addStep t) (c, [])
  if s.2.dedup.length ≠ s.2.length then .error .duplicativelyRegulatedObject else pure s.1

/-- `add_components`, `P/main_model_impl.hpp` lines 127-136: the types in the order of `AllComponents`. -/
def buildStep (D : CompType → List (Elem K)) (c : Container (Comp K)) (t : CompType) : Res (Container (Comp K)) :=
  addComponent t c (D t)

def build (D : CompType → List (Elem K)) : Res (Container (Comp K)) :=
  allTypes.foldlM (buildStep D) (Container.empty 22)

end PGM.Input
