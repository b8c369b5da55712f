import Verif.Dataset.Model

/-!
# Datasets: specification (C35) -/

namespace PGM.Datasets

/-- The two ways to say how the elements of a component are divided over `batch` scenarios. -/
def Divides (batch : Nat) (perScenario total : Int) (indptr : Option (List Int)) : Prop :=
  -- the same number for every scenario
  (0 ≤ perScenario ∧ indptr = none ∧ total = perScenario * batch) ∨
  -- an index pointer: from 0 to the total, never decreasing
  (perScenario < 0 ∧ ∃ p, indptr = some p ∧ batch + 1 ≤ p.length ∧ p[0]? = some 0 ∧ p[batch]? = some total ∧
    ∀ i < batch, ∃ a b, p[i]? = some a ∧ p[i + 1]? = some b ∧ a ≤ b)

/-- The datasets that a program can make: the constructor, accepted buffers and attributes, conversions, individual scenarios, and slices of datasets
without index pointers (the assertion of line 535). -/
inductive Made : Dataset → Prop
  | create {M : Meta} {b : Bool} {n : Int} {D : Dataset} (h : create M b n = .ok D) : Made D
  | addBuffer {D E : Dataset} {name : Nat} {e t : Int} {p : Option (List Int)} {data : Option Ptr} (hD : Made D)
      (h : addBuffer D name e t p data = .ok E) : Made E
  | addAttribute {D E : Dataset} {name attr : Nat} {data : Option Ptr} (hD : Made D) (h : addAttribute D name attr data = .ok E) : Made E
  | convert {D : Dataset} (hD : Made D) : Made (convert D)
  | individual {D E : Dataset} {s : Nat} (hD : Made D) (h : individual D s = .ok E) : Made E
  | slice {D E : Dataset} {node first last : Nat} (hD : Made D) (hd : ∀ c ∈ D.components, c.indptr = none)
      (h : slice D node first last = .ok E) : Made E

/-- The number of elements that a component has in a scenario, by its description. -/
def Holds (c : Component) (scenario : Nat) (n : Int) : Prop :=
  match c.indptr with
  | none => n = c.perScenario
  | some p => ∃ a b, p[scenario]? = some a ∧ p[scenario + 1]? = some b ∧ n = b - a

/-- Every scenario has the same number of elements of the component. -/
def EqualSizes (batch : Nat) (c : Component) : Prop := ∃ n, ∀ s < batch, Holds c s n

/-- The same component, with an index pointer `0, e, 2e, ...` in the place of the number `e` of elements per scenario. -/
def Rewritten (batch : Nat) (c c' : Component) : Prop :=
  c' = c ∨ (0 ≤ c.perScenario ∧ c.indptr = none ∧ c'.perScenario < 0 ∧ c'.name = c.name ∧ c'.total = c.total ∧ c'.data = c.data ∧
    c'.attributes = c.attributes ∧ ∃ p, c'.indptr = some p ∧ ∀ i ≤ batch, p[i]? = some (c.perScenario * i))

end PGM.Datasets
