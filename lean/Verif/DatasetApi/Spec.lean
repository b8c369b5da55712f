import Verif.DatasetApi.Model

/-!
# What the information about a dataset should be (C65): specification in terms of what the caller has seen
-/

namespace PGM.DatasetApi

/-- The components that were added to dataset `d`, in order: name, elements per scenario and total. Only calls that reported no error count; a converted dataset starts with the components of its source. The
last call seen comes first. -/
def accepted : List Seen → Nat → List (Nat × Int × Int)
  | [], _ => []
  | (.create .., r, _) :: earlier, d => if r = .ptr (some d) then [] else accepted earlier d
  | (.convert (some s), r, _) :: earlier, d => if r = .ptr (some d) then accepted earlier s else accepted earlier d
  | (.addBuffer (some x) (some c) e t _ _, _, code) :: earlier, d => if x = d ∧ code = 0 then accepted earlier d ++ [(c, e, t)] else accepted earlier d
  | _ :: earlier, d => accepted earlier d

/-- What dataset `d` was created as: type, batch or not, and size. -/
def madeAs : List Seen → Nat → Option (Nat × Bool × Int)
  | [], _ => none
  | (.create (some t) b n, r, _) :: earlier, d => if r = .ptr (some d) then some (t, b ≠ 0, n) else madeAs earlier d
  | (.convert (some s), r, _) :: earlier, d => if r = .ptr (some d) then madeAs earlier s else madeAs earlier d
  | _ :: earlier, d => madeAs earlier d

/-- A call returns a value and no error, and changes no dataset. -/
def Answers (M : MetaData) (w : World) (h : CApi.Handle) (c : Call) (r : Ret) : Prop := ∃ h', step M w h c = some ((w, r), h') ∧ h'.errCode = 0

/-- A call reports an error, returns nothing useful, and changes no dataset. -/
def Refuses (M : MetaData) (w : World) (h : CApi.Handle) (c : Call) : Prop :=
  ∃ h' r, step M w h c = some ((w, r), h') ∧ h'.errCode ≠ 0 ∧ (r = .nothing ∨ r = .ptr none ∨ r = .num 0 ∨ r = .name none)

/-- The dataset was made and not destroyed. -/
def Alive (w : World) (d : Nat) : Prop := ∃ O, w[d]? = some (some O)

/-- The sizes of a buffer for a dataset with `n` scenarios: the same number of elements in every scenario and no index pointer, or an index pointer that goes from 0 to the total number without decreasing. -/
def SizesFit (n : Nat) (perScenario total : Int) (indptr : Option (List Int)) : Prop :=
  (0 ≤ perScenario ∧ indptr = none ∧ total = n * perScenario) ∨
    (perScenario < 0 ∧ ∃ p, indptr = some p ∧ p[0]? = some 0 ∧ p[n]? = some total ∧ ∀ (i : Nat) (a b : Int), i < n → p[i]? = some a → p[i + 1]? = some b → a ≤ b)

/-- An index pointer that is used has an entry for every scenario and one more; otherwise the function reads outside of the memory that it was given. -/
def Readable (n : Nat) (perScenario : Int) (indptr : Option (List Int)) : Prop := ∀ p, perScenario < 0 → indptr = some p → n < p.length

end PGM.DatasetApi
