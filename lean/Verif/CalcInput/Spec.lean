import Verif.CalcInput.Model

/-!
# What the input of a calculation should be (C58): specification

Nothing here refers to the functions that prepare the input.
-/

namespace PGM.CalcInput

variable {P : Type}

/-- The entry at place `p` of the vector of island `g`. -/
def entry (v : List (List P)) (g p : Nat) : Option P := v[g]?.bind fun l => l[p]?

/-- The vectors `v` of all islands contain the values `val i` of exactly those of `n` components `i` that belong to an object `o` of an island `g`
(`want i = some (g, o)`), each once. `place` says where, `objs` says for every place of an island which object its component belongs to. -/
structure Delivers (n : Nat) (want : Nat → Option (Nat × Nat)) (val : Nat → Option P) (place : Nat → Option (Nat × Nat)) (objs : Nat → List Nat)
    (v : List (List P)) : Prop where
  there : ∀ i, i < n → ∀ g o, want i = some (g, o) → ∃ p x, place i = some (g, p) ∧ (objs g)[p]? = some o ∧ val i = some x ∧ entry v g p = some x
  absent : ∀ i, i < n → want i = none → place i = none
  only : ∀ g p x, entry v g p = some x → ∃ i, i < n ∧ place i = some (g, p) ∧ ∀ i', i' < n → place i' = some (g, p) → i' = i
  sizes : ∀ (g : Nat) l, v[g]? = some l → l.length = (objs g).length

end PGM.CalcInput
