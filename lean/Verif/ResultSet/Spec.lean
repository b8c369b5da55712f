import Verif.ResultSet.Model
import Verif.Dataset.Spec

/-!
# Datasets for the results of a calculation: specification (C67)
-/

namespace PGM.ResultSet

open PGM.Datasets PGM.Update

/-- The types of components with results of a calculation: sensors only of state estimations, faults only of short circuit calculations, regulators only of power flow calculations, everything else always. -/
def HasResults : Calculation → CompType → Prop
  | calculation, .symPowerSensor | calculation, .asymPowerSensor | calculation, .symVoltageSensor | calculation, .asymVoltageSensor | calculation, .symCurrentSensor | calculation, .asymCurrentSensor => calculation = .stateEstimation
  | calculation, .fault => calculation = .shortCircuit
  | calculation, .tapRegulator | calculation, .voltageRegulator => calculation = .powerFlow
  | _, _ => True

/-- The type of the dataset with the results. -/
def resultType : Calculation → Bool → OutputType
  | .shortCircuit, _ => .scOutput
  | _, true => .symOutput
  | _, false => .asymOutput

/-- The user asks for the component: without a filter for all, otherwise for those that the filter names. -/
def Asked (F : Filter) (c : Nat) : Prop := F = [] ∨ ∃ attrs, (c, attrs) ∈ F

/-- The result dataset has to have the component. -/
def Wanted (H : Heap) (calculation : Calculation) (F : Filter) (c : Nat) : Prop := Asked F c ∧ ∃ t, c = H.name t ∧ HasResults calculation t

/-- A pointer to memory of the dataset itself, made for the component (and attribute) and large enough for `size` elements; without elements it may be a null pointer. -/
def Own (R : Owning) (c : Nat) (column : Option Nat) (size : Int) (p : Option Ptr) : Prop :=
  (∃ b, p = some ⟨b, 0⟩ ∧ ⟨b, c, column, size⟩ ∈ R.storage) ∨ (size = 0 ∧ p = none)

/-- The component `c'` of the result has a place for `n` scenarios of the component `c` of the input: all attributes in one buffer, or one buffer for each attribute that the user asks for. -/
structure Room (R : Owning) (n : Nat) (F : Filter) (c c' : Component) : Prop where
  name : c'.name = c.name
  perScenario : c'.perScenario = c.perScenario
  total : c'.total = c.perScenario * n
  uniform : c'.indptr = none
  rows : (∀ attrs, (c.name, attrs) ∈ F → attrs = []) → c'.attributes = [] ∧ Own R c.name none (c.perScenario * n) c'.data
  columns : ∀ attrs, (c.name, attrs) ∈ F → attrs ≠ [] → c'.data = none ∧ c'.attributes.map (·.name) = attrs ∧ ∀ a ∈ c'.attributes, Own R c.name (some a.name) (c.perScenario * n) a.data

/-- The arguments make sense: the names of types are different, the components of the input are those types and are part of the meta data, and the filter names every component and attribute once, and attributes that
exist. -/
structure Proper (H : Heap) (ref : Dataset) (calculation : Calculation) (sym : Bool) (F : Filter) : Prop where
  names : Function.Injective H.name
  typed : ∀ c ∈ ref.components, ∃ t, c.name = H.name t
  known : ∀ c ∈ ref.components, (H.info (resultType calculation sym)).hasComponent c.name = true
  keys : (F.map (·.1)).Nodup
  once : ∀ x ∈ F, x.2.Nodup
  attributes : ∀ x ∈ F, ∀ a ∈ x.2, (H.info (resultType calculation sym)).hasAttribute x.1 a = true

end PGM.ResultSet
