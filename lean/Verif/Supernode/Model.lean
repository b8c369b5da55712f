import Verif.Topology.Model
import Mathlib.Algebra.Group.Int.Defs

/-!
# Nodes that are connected by links (C32)

Prefix of all paths: `P/` = `/repo/power_grid_model_c/power_grid_model/include/power_grid_model/`. Model of `P/supernodes.hpp`.

Simplifications: indices are natural numbers in range; `disconnected` is `none`; failing assertions are `none`. `boost::connected_components` is the
depth-first search of `boost::depth_first_visit` (see `Verif.Topology.Model`), started at every vertex that has not been seen, in increasing
order; its component is the `group` of the model of the search. Vectors of vectors that grow are functions.
-/

namespace PGM.Supernode

open PGM.Topology

/-- A link with its connections: `link_node_idx` and `link_connected`. -/
structure LinkIn where
  from_ : Nat
  to : Nat
  fromConn : Bool
  toConn : Bool

/-- The edges of one link, lines 66-78. -/
def linkEdges (l : LinkIn) : List (Edge Int) :=
  if l.fromConn = false ∨ l.toConn = false then [] else [⟨l.from_, l.to, 0⟩, ⟨l.to, l.from_, 0⟩]

/-- `internal_edges`, lines 64-79. -/
def edges (links : List LinkIn) : List (Edge Int) := links.flatMap linkEdges

/-- One vertex of `boost::connected_components`. -/
def componentStep (E : List (Edge Int)) (n : Nat) (s : Visit Int × Nat) (v : Nat) : Option (Visit Int × Nat) :=
  if s.1.colour v = .white then do
    let st ← depthFirstVisit E n s.2 s.1 v
    some (st, s.2 + 1)
  else some s

/-- `boost::connected_components`, line 89: the state of the search and the number of components. -/
def components (E : List (Edge Int)) (n : Nat) : Option (Visit Int × Nat) :=
  (List.range n).foldlM (componentStep E n) (⟨fun _ => .white, fun _ => none, fun _ => 0, fun v => v, [], []⟩, 0)

/-- `TopologicalNodeMapping`, lines 29-50. -/
structure Mapping where
  nTopo : Nat
  topo : List Nat

/-- The constructor with `check_sanity`, lines 31-34, 46-49. -/
def mkMapping (nTopo : Nat) (topo : List Nat) : Option Mapping :=
  if nTopo = (if topo = [] then 0 else topo.foldl max 0 + 1) then some ⟨nTopo, topo⟩ else none

/-- `find_link_connected_components`, lines 54-91. A vertex without a component, which does not occur, would keep its number. -/
def findComponents (n : Nat) (links : List LinkIn) : Option Mapping := do
  let r ← components (edges links) n
  mkMapping r.2 ((List.range n).map fun v => (r.1.group v).getD v)

/-- One user node, lines 122-127: the nodes of the topological nodes, and the coupling of the user nodes. -/
def nodeStep (s : (Nat → List Nat) × List (Nat × Nat)) (x : Nat × Nat) : (Nat → List Nat) × List (Nat × Nat) :=
  (Function.update s.1 x.2 (s.1 x.2 ++ [x.1]), s.2 ++ [(x.2, (s.1 x.2).length)])

/-- `user_node_topo_node_coup`, lines 119-129. -/
def coupleNodes (m : Mapping) : (Nat → List Nat) × List (Nat × Nat) :=
  (m.topo.zipIdx.map fun x => (x.2, x.1)).foldl nodeStep (fun _ => [], [])

/-- The topological node of a link, lines 146-154. -/
def linkTopo (m : Mapping) (l : LinkIn) : Option Nat :=
  if l.fromConn then m.topo[l.from_]? else if l.toConn then m.topo[l.to]? else none

/-- The ends of a link, lines 138-139. -/
def linkEnds (l : LinkIn) : Option Nat × Option Nat := (if l.fromConn then some l.from_ else none, if l.toConn then some l.to else none)

/-- One link, lines 133-163. -/
def linkStep (m : Mapping) (s : (Nat → List (Option Nat × Option Nat)) × List (Option (Nat × Nat))) (l : LinkIn) :
    Option ((Nat → List (Option Nat × Option Nat)) × List (Option (Nat × Nat))) :=
  if l.fromConn && l.toConn && !(m.topo[l.from_]? == m.topo[l.to]?) then none
  else
    match linkTopo m l with
    | none => some (s.1, s.2 ++ [none])
    | some g => some (Function.update s.1 g (s.1 g ++ [linkEnds l]), s.2 ++ [some (g, (s.1 g).length)])

/-- `user_link_topo_node_coup`, lines 131-165. -/
def coupleLinks (m : Mapping) (links : List LinkIn) : Option ((Nat → List (Option Nat × Option Nat)) × List (Option (Nat × Nat))) :=
  links.foldlM (linkStep m) (fun _ => [], [])

/-- A grid with links: the parts of `ComponentTopology` and `ComponentConnections` that decide about islands. -/
structure UserGrid (A : Type) where
  grid : Grid A
  links : List LinkIn

/-- `construct_reduced_topology`, lines 174-207. `remap` is the mapping of a node. -/
def remapGrid {A : Type} (m : Mapping) (G : Grid A) : Grid A :=
  let remap := fun x => m.topo[x]?.getD x
  ⟨m.nTopo, G.branches.map fun b => { b with i := remap b.i, j := remap b.j }, G.branch3s.map fun b => { b with node := fun k => remap (b.node k) },
    G.sources.map fun s => (remap s.1, s.2)⟩

/-- What the rest of the program uses of `ReducedTopology`. -/
structure Reduced (A : Type) where
  grid : Grid A
  /-- `user_nodes` of the topological nodes. -/
  userNodes : Nat → List Nat
  userLinks : Nat → List (Option Nat × Option Nat)
  nodeCoup : List (Nat × Nat)
  linkCoup : List (Option (Nat × Nat))

/-- `dont_reduce_topology`, lines 211-233. -/
def dontReduce {A : Type} (U : UserGrid A) : Reduced A :=
  ⟨U.grid, fun g => if g < U.grid.nTotal then [g] else [], fun _ => [], (List.range U.grid.nTotal).map fun x => (x, 0), []⟩

/-- `reduce_topology`, lines 236-246. -/
def reduceTopology {A : Type} (U : UserGrid A) : Option (Reduced A) :=
  if U.links = [] then some (dontReduce U)
  else do
    let m ← findComponents U.grid.nNode U.links
    let l ← coupleLinks m U.links
    let n := coupleNodes m
    some ⟨remapGrid m U.grid, n.1, l.1, n.2, l.2⟩

end PGM.Supernode
