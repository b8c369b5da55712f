import Verif.Topology.Model
import Mathlib.Logic.Relation

/-!
# Which nodes are connected (C12): specification

Nothing here refers to the search. A node of the grid is a user node, below `nNode`, or the internal node `nNode + k` of the branch with three
sides number `k`.
-/

namespace PGM.Topology

variable {A : Type} [AddGroup A]

/-- All nodes that are referred to exist. -/
structure Grid.Valid (G : Grid A) : Prop where
  branch : ∀ b ∈ G.branches, b.i < G.nNode ∧ b.j < G.nNode
  branch3 : ∀ b ∈ G.branch3s, ∀ m, b.node m < G.nNode
  source : ∀ s ∈ G.sources, s.1 < G.nNode

/-- Current can flow directly between two nodes, and the phase shift on the way: a branch that is closed at both sides, or a closed side of a
branch with three sides. -/
inductive Link (G : Grid A) : Nat → Nat → A → Prop
  | forward {b : Branch A} : b ∈ G.branches → b.iConn = true → b.jConn = true → Link G b.i b.j (-b.shift)
  | backward {b : Branch A} : b ∈ G.branches → b.iConn = true → b.jConn = true → Link G b.j b.i b.shift
  | inward {b : Branch3 A} {k : Nat} {m : Fin 3} : G.branch3s[k]? = some b → b.conn m = true → Link G (b.node m) (G.nNode + k) (-b.shift m)
  | outward {b : Branch3 A} {k : Nat} {m : Fin 3} : G.branch3s[k]? = some b → b.conn m = true → Link G (G.nNode + k) (b.node m) (b.shift m)

/-- Two nodes are directly connected. -/
def Linked (G : Grid A) (x y : Nat) : Prop := ∃ a, Link G x y a

/-- There is a way from one node to another. -/
def Reach (G : Grid A) : Nat → Nat → Prop := Relation.ReflTransGen (Linked G)

/-- A node is energised: there is a way to it from a connected source. -/
def Energised (G : Grid A) (x : Nat) : Prop := ∃ s ∈ G.sources, s.2 = true ∧ Reach G s.1 x

/-- A way with the sum of the phase shifts on it. -/
inductive Way (G : Grid A) : Nat → Nat → A → Prop
  | refl (x : Nat) : Way G x x 0
  | step {x y z : Nat} {a b : A} : Way G x y a → Link G y z b → Way G x z (a + b)

/-- Two different directly connected nodes are on a cycle: there is another way between them, which does not go directly from one to the other. -/
def OnCycle (G : Grid A) (x y : Nat) : Prop :=
  x ≠ y ∧ Linked G x y ∧ Relation.ReflTransGen (fun a b => Linked G a b ∧ ¬(a = x ∧ b = y) ∧ ¬(a = y ∧ b = x)) x y

end PGM.Topology
