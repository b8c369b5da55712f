import Verif.Supernode.Model
import Verif.Topology.Spec

/-!
# Supernodes: specification (C32)

Nothing here refers to the search or to the mapping.
-/

namespace PGM.Supernode

open PGM.Topology

variable {A : Type} [AddGroup A]

/-- All nodes that are referred to exist. -/
structure UserGrid.Valid (U : UserGrid A) : Prop where
  grid : U.grid.Valid
  link : ∀ l ∈ U.links, l.from_ < U.grid.nNode ∧ l.to < U.grid.nNode

/-- Two nodes are at the two sides of a closed link. -/
def Closed (links : List LinkIn) (x y : Nat) : Prop :=
  ∃ l ∈ links, l.fromConn = true ∧ l.toConn = true ∧ ((l.from_ = x ∧ l.to = y) ∨ (l.from_ = y ∧ l.to = x))

/-- A chain of closed links. -/
def Chain (links : List LinkIn) : Nat → Nat → Prop := Relation.ReflTransGen (Closed links)

/-- Two nodes of the grid with links are directly connected: by a branch or by a closed link. -/
def UserLinked (U : UserGrid A) (x y : Nat) : Prop := Linked U.grid x y ∨ Closed U.links x y

/-- There is a way between two nodes. -/
def UserReach (U : UserGrid A) : Nat → Nat → Prop := Relation.ReflTransGen (UserLinked U)

/-- A node is energised: there is a way to it from a connected source. -/
def UserEnergised (U : UserGrid A) (x : Nat) : Prop := ∃ s ∈ U.grid.sources, s.2 = true ∧ UserReach U s.1 x

end PGM.Supernode
