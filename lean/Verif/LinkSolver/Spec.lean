import Mathlib.Algebra.Field.Defs
import Mathlib.Algebra.BigOperators.Group.Finset.Basic
import Mathlib.Logic.Relation

/-!
# Currents through the links of a supernode (C33): specification

Nothing here refers to the elimination. The links are numbered from zero; `edges j` are the nodes at the two sides of link `j`; a current is positive
from the first to the second.
-/

namespace PGM.LinkSolver

variable {K : Type} [Field K]

/-- Two nodes are at the sides of one of the first `k` links. -/
def Adjacent (edges : Nat → Nat × Nat) (k x y : Nat) : Prop := ∃ j, j < k ∧ (edges j = (x, y) ∨ edges j = (y, x))

/-- The first `k` links join two nodes. -/
def Joined (edges : Nat → Nat × Nat) (k : Nat) : Nat → Nat → Prop := Relation.ReflTransGen (Adjacent edges k)

/-- The nodes of a link are already joined by links with a lower number. -/
def Redundant (edges : Nat → Nat × Nat) (j : Nat) : Prop := Joined edges j (edges j).1 (edges j).2

/-- Kirchhoff's current law at every node: what is injected and what comes in through links goes out through links. -/
def Balanced (edges : Nat → Nat × Nat) (n m : Nat) (loads x : Nat → K) : Prop :=
  ∀ v, v < n → loads v + ∑ j ∈ Finset.range m, (if (edges j).2 = v then x j else 0) = ∑ j ∈ Finset.range m, if (edges j).1 = v then x j else 0

open Classical in
/-- The injections of each group of joined nodes add up to zero. -/
def ZeroTotal (edges : Nat → Nat × Nat) (n m : Nat) (loads : Nat → K) : Prop :=
  ∀ v, v < n → ∑ u ∈ Finset.range n, (if Joined edges m u v then loads u else 0) = 0

/-- The nodes exist and no link joins a node with itself. -/
def ValidLinks (edges : Nat → Nat × Nat) (n m : Nat) : Prop := ∀ j, j < m → (edges j).1 < n ∧ (edges j).2 < n ∧ (edges j).1 ≠ (edges j).2

/-- When a link that is not redundant is added, no redundant link has both its nodes in the group of the second node of the added link. -/
def Unhindered (edges : Nat → Nat × Nat) (m : Nat) : Prop :=
  ∀ i j, i < m → j < m → ¬Redundant edges i → Redundant edges j →
    ¬(Joined edges i (edges i).2 (edges j).1 ∧ Joined edges i (edges i).2 (edges j).2)

end PGM.LinkSolver
