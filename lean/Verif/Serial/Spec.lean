import Verif.Serial.Model
import Verif.Dataset.Spec

/-!
# Serialisation: specification (C37) -/

namespace PGM.Serial

/-- The elements of a component in a scenario are the `n` elements of its buffer from `first` on, by the description of the buffer. -/
def Part (c : Component) (scenario first n : Nat) : Prop :=
  (0 ≤ c.perScenario ∧ (n : Int) = c.perScenario ∧ (first : Int) = c.perScenario * scenario) ∨
  (c.perScenario < 0 ∧ c.indptr[scenario]? = some (first : Int) ∧ c.indptr[scenario + 1]? = some ((first + n : Nat) : Int))

/-- The description of a buffer is one that the dataset accepts (`Verif.Dataset.Props`). -/
def Described (batch : Nat) (c : Component) : Prop :=
  Datasets.Divides batch c.perScenario c.total (if c.perScenario < 0 then some c.indptr else none)

/-- A value of the type of the attribute. -/
def Typed : CType → Cell → Prop
  | .double, .real _ => True
  | .double3, .three _ _ _ => True
  | .int8, .int n => -128 ≤ n ∧ n ≤ 127
  | .int32, .int n => -2147483648 ≤ n ∧ n ≤ 2147483647
  | _, _ => False

/-- The buffer holds the attribute. -/
def Has (c : Component) (a : MetaAttribute) : Prop := ∀ l, c.columns = some l → a ∈ l

open Classical in
/-- The value of an attribute of an element of a buffer: NaN if the buffer does not hold the attribute. -/
noncomputable def value (c : Component) (i : Nat) (a : MetaAttribute) : Cell := if Has c a then c.cell i a.name else nanCell a.ctype

/-- The datasets that can be made: components and attributes are those of the meta data, with distinct names; the buffers are divided over the
scenarios; a dataset that is not a batch has one scenario; values have the type of the attribute. -/
structure WellFormed (D : Dataset) : Prop where
  single : D.isBatch = false → D.batchSize = 1
  names : (D.dataset.components.map MetaComponent.name).Nodup
  attributes : ∀ m ∈ D.dataset.components, (m.attributes.map MetaAttribute.name).Nodup
  member : ∀ c ∈ D.components, c.component ∈ D.dataset.components
  distinct : (D.components.map fun c => c.component.name).Nodup
  divided : ∀ c ∈ D.components, Described D.batchSize c
  columns : ∀ c ∈ D.components, ∀ l, c.columns = some l → (l.map MetaAttribute.name).Nodup ∧ ∀ a ∈ l, a ∈ c.component.attributes
  typed : ∀ c ∈ D.components, ∀ a ∈ c.component.attributes, Has c a → ∀ i : Nat, i < c.total → Typed a.ctype (c.cell i a.name)

/-- The buffers that a caller can give to the deserialiser for a component: none, an array of structs, or attribute buffers of attributes of the
component, without repetitions. -/
def Suitable (m : MetaComponent) : Target → Prop
  | .columns l => (l.map MetaAttribute.name).Nodup ∧ ∀ a ∈ l, a ∈ m.attributes
  | _ => True

/-- What a transport may do with the tokens: a float may become the integer of the same value (the text of JSON), everything else is kept. -/
def Transport (g : Token → Token) : Prop :=
  ∀ t, g t = t ∨ ∃ n : Int, t = .float (.fin n) ∧ g t = .int n

/-- The target holds the attribute. -/
def Wanted (m : MetaComponent) (target : Target) (a : MetaAttribute) : Prop :=
  match target with
  | .absent => False
  | .row => a ∈ m.attributes
  | .columns l => a ∈ l

/-- Deserialising the message gives back the dataset: which dataset it is, whether it is a batch and the number of scenarios; exactly the components
with elements; for every component the same total and, if the caller gives buffers, a valid description with the same elements in every scenario; every
attribute that the buffers of the caller hold has, for every element, the value of the source (NaN if it was NaN there, or if the source does not hold
the attribute); and nothing else in memory is touched. Whatever buffers the caller gives, and whatever was in them before. -/
def Restores (M : List MetaDataset) (D : Dataset) (ts : List Token) : Prop :=
  ∃ P, preParse M ts = .ok P ∧ P.dataset = D.dataset ∧ P.isBatch = D.isBatch ∧ P.batchSize = D.batchSize ∧
    (∀ name, (∃ x ∈ P.components, x.component.name = name) ↔ ∃ c ∈ D.components, c.component.name = name ∧ 0 < c.total) ∧
    ∀ (target : String → Target) (mem : String → Memory), (∀ m ∈ D.dataset.components, Suitable m (target m.name)) →
      ∃ Rs, parse P target mem = .ok Rs ∧
        (∀ R ∈ Rs, ∃ c ∈ D.components, 0 < c.total ∧ R.component = c.component) ∧
        ∀ c ∈ D.components, 0 < c.total → ∃ R ∈ Rs, R.component = c.component ∧ R.total = c.total ∧
          ((target c.component.name).given = true →
            Described D.batchSize R ∧ ∀ s < D.batchSize, ∀ f n, Part c s f n → Part R s f n) ∧
          (∀ i : Nat, i < c.total → ∀ a, Wanted c.component (target c.component.name) a → R.cell i a.name = value c i a) ∧
          (∀ (i : Nat) (s : String), c.total ≤ i ∨ (∀ a, Wanted c.component (target c.component.name) a → a.name ≠ s) →
            R.cell i s = mem c.component.name i s)

/-- The names that JSON keeps apart from the numbers. -/
def NotANumber (s : String) : Prop := s ≠ "inf" ∧ s ≠ "+inf" ∧ s ≠ "-inf"

end PGM.Serial
