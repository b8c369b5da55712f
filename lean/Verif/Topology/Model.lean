import Verif.Index.Model
import Verif.Ordering.Model
import Mathlib.Logic.Function.Basic
import Mathlib.Algebra.Group.Defs

/-!
# Building the topology (C12)

Prefix of all paths: `P/` = `/repo/power_grid_model_c/power_grid_model/include/power_grid_model/`. Model of `P/topology.hpp`.

Simplifications: indices are natural numbers and are taken to be in range. Vectors that are indexed by nodes and that are overwritten at single
positions are functions. Phase shifts are elements of any additive group. Failing assertions, exhausted loops and out-of-range accesses are
`none`. The group and the position of a node, an `Idx2D` in the code, are two values; `disconnected` is `none`. Sensors and regulators are
coupled with the same function as shunts, loads and sources.
-/

namespace PGM.Topology

/-- A branch of the (reduced) component topology with its connections: `branch_node_idx`, `branch_connected`, `branch_phase_shift`,
`P/calculation_parameters.hpp`. -/
structure Branch (A : Type) where
  i : Nat
  j : Nat
  iConn : Bool
  jConn : Bool
  shift : A

/-- A branch with three sides: `branch3_node_idx`, `branch3_connected`, `branch3_phase_shift`. -/
structure Branch3 (A : Type) where
  node : Fin 3 → Nat
  conn : Fin 3 → Bool
  shift : Fin 3 → A

/-- The part of `ReducedComponentTopology` and `ComponentConnections` that decides about islands. A source is its node and whether it is
connected. -/
structure Grid (A : Type) where
  nNode : Nat
  branches : List (Branch A)
  branch3s : List (Branch3 A)
  sources : List (Nat × Bool)

/-- `n_node_total`: the internal nodes of branches with three sides come last. -/
def Grid.nTotal {A : Type} (G : Grid A) : Nat := G.nNode + G.branch3s.length

/-- An edge of the directed graph. -/
structure Edge (A : Type) where
  src : Nat
  tgt : Nat
  shift : A

variable {A : Type} [AddGroup A]

/-- The edges of a branch, lines 206-213. -/
def branchEdges (b : Branch A) : List (Edge A) :=
  if b.iConn && b.jConn && b.i != b.j then [⟨b.i, b.j, -b.shift⟩, ⟨b.j, b.i, b.shift⟩] else []

/-- The edges of one side of a branch with three sides and internal node `j`, lines 221-228. -/
def sideEdges (b : Branch3 A) (j : Nat) (m : Fin 3) : List (Edge A) :=
  if b.conn m then [⟨b.node m, j, -b.shift m⟩, ⟨j, b.node m, b.shift m⟩] else []

/-- The edges of a branch with three sides, lines 220-229. -/
def branch3Edges (b : Branch3 A) (j : Nat) : List (Edge A) := sideEdges b j 0 ++ sideEdges b j 1 ++ sideEdges b j 2

/-- `build_sparse_graph`, lines 196-237. -/
def edges (G : Grid A) : List (Edge A) :=
  G.branches.flatMap branchEdges ++ G.branch3s.zipIdx.flatMap fun b => branch3Edges b.1 (G.nNode + b.2)

/-- The edges that leave a vertex, in the order in which they were added: construction of `boost::compressed_sparse_row_graph` with
`edges_are_unsorted_multi_pass`. -/
def outEdges (E : List (Edge A)) (u : Nat) : List (Edge A) := E.filter (·.src = u)

/-- `boost::default_color_type`. -/
inductive Colour where
  | white
  | gray
  | black
  deriving DecidableEq

/-- What the search changes: the colours, and the references of `GlobalDFSVisitor`, lines 113-123. -/
structure Visit (A : Type) where
  colour : Nat → Colour
  group : Nat → Option Nat
  shift : Nat → A
  pred : Nat → Nat
  dfsNode : List Nat
  back : List (Nat × Nat)

/-- `discover_vertex`, lines 108-111, with the colour gray. -/
def discover (g : Nat) (st : Visit A) (u : Nat) : Visit A :=
  { st with colour := Function.update st.colour u .gray, group := Function.update st.group u (some g), dfsNode := st.dfsNode ++ [u] }

/-- `tree_edge`, lines 82-87. -/
def treeEdge (st : Visit A) (e : Edge A) : Visit A :=
  { st with shift := Function.update st.shift e.tgt (st.shift e.src + e.shift), pred := Function.update st.pred e.tgt e.src }

/-- `back_edge`, lines 95-104. -/
def backEdge (st : Visit A) (e : Edge A) : Visit A :=
  if st.pred e.src ≠ e.tgt then { st with back := st.back ++ [(e.src, e.tgt)] } else st

/-- The loop of `boost::depth_first_visit` (its version with an explicit stack): the top of the stack is the vertex with the edges that have not
been looked at. -/
def search (E : List (Edge A)) (g : Nat) : Nat → List (Nat × List (Edge A)) → Visit A → Option (Visit A)
  | _, [], st => some st
  | 0, _ :: _, _ => none
  | fuel + 1, (u, []) :: rest, st => search E g fuel rest { st with colour := Function.update st.colour u .black }
  | fuel + 1, (u, e :: es) :: rest, st =>
    match st.colour e.tgt with
    | .white => search E g fuel ((e.tgt, outEdges E e.tgt) :: (u, es) :: rest) (discover g (treeEdge st e) e.tgt)
    | .gray => search E g fuel ((u, es) :: rest) (backEdge st e)
    | .black => search E g fuel ((u, es) :: rest) st

/-- `boost::depth_first_visit`, called in lines 263-266: every vertex is entered and left once and every edge is looked at once. -/
def depthFirstVisit (E : List (Edge A)) (nTotal g : Nat) (st : Visit A) (source : Nat) : Option (Visit A) :=
  search E g (E.length + nTotal + 1) [(source, outEdges E source)] (discover g { st with dfsNode := [], back := [] } source)

/-- The loop of lines 317-321: marks a node and its predecessors as in a cycle. -/
def markUp (pred : Nat → Nat) : Nat → Nat → (Nat → Bool) → Option (Nat → Bool)
  | fuel, node, inCycle =>
    if inCycle node then some inCycle
    else
      match fuel with
      | 0 => none
      | fuel + 1 => markUp pred fuel (pred node) (Function.update inCycle node true)

/-- One node of lines 341-346. -/
def nearestStep (pred : Nat → Nat) (d : Ordering.Adj) (x : Nat) : Ordering.Adj :=
  if pred x ≠ x then { keys := Ordering.insertKey x d.keys, nb := fun k => if k = x then [pred x] else d.nb k } else d

/-- One back edge of lines 347-353. -/
def nearestBack (d : Ordering.Adj) (e : Nat × Nat) : Ordering.Adj := if Ordering.inGraph e.1 e.2 d then d else d.push e.1 e.2

/-- `permuted_node_indices`, lines 358-361. -/
def permuted (n : Nat) (reordered : List Nat) : Nat → Nat :=
  reordered.zipIdx.foldl (fun m x => Function.update m x.1 (n + x.2)) fun _ => 0

/-- `reorder_node`, lines 302-368. Returns the nodes in their new order, the fill-ins and the changed marks. -/
def reorderNode (pred : Nat → Nat) (inCycle : Nat → Bool) (dfsNode : List Nat) (back : List (Nat × Nat)) :
    Option (List Nat × List (Nat × Nat) × (Nat → Bool)) := do
  let inCycle ← back.foldlM (fun s e => markUp pred dfsNode.length e.1 s) inCycle
  let far := dfsNode.reverse.filter fun x => !inCycle x
  let cyclic := dfsNode.filter fun x => inCycle x
  if cyclic.length < 4 then some (far ++ cyclic.reverse, [], inCycle)
  else
    let d := cyclic.foldl (nearestStep pred) ⟨[], fun _ => []⟩
    let d := back.foldl nearestBack d
    let (reordered, fills) ← Ordering.minimumDegreeOrdering d
    let perm := permuted far.length reordered
    some (far ++ reordered, fills.map fun f => (perm f.1, perm f.2), inCycle)

/-- The part of `MathModelTopology` that the search sets, `P/calculation_parameters.hpp`. -/
structure Island (A : Type) where
  slack : Nat
  radial : Bool
  phaseShift : List A
  fillIn : List (Nat × Nat)

/-- The state of the loop over the sources. -/
structure State (A : Type) where
  visit : Visit A
  pos : Nat → Option Nat
  inCycle : Nat → Bool
  islands : List (Island A)

/-- The bus numbers, lines 283-290. -/
def assignPos (order : List Nat) (pos : Nat → Option Nat) : Nat → Option Nat :=
  order.zipIdx.foldl (fun (p : Nat → Option Nat) x => Function.update p x.1 (some x.2)) pos

/-- The order of the buses of an island, lines 267-277. -/
def islandOrder (v : Visit A) (inCycle : Nat → Bool) : Option (List Nat × List (Nat × Nat) × (Nat → Bool)) :=
  if v.back = [] then some (v.dfsNode.reverse, [], inCycle) else reorderNode v.pred inCycle v.dfsNode v.back

/-- One source of `dfs_search`, lines 242-297. -/
def sourceStep (E : List (Edge A)) (nTotal : Nat) (s : State A) (source : Nat × Bool) : Option (State A) :=
  if source.2 = false then some s
  else if s.visit.group source.1 ≠ none then some s
  else do
    let v ← depthFirstVisit E nTotal s.islands.length s.visit source.1
    let (order, fills, inCycle) ← islandOrder v s.inCycle
    let pos := assignPos order s.pos
    let slack ← pos source.1
    some { visit := v, pos := pos, inCycle := inCycle,
           islands := s.islands ++ [⟨slack, v.back = [], order.map v.shift, fills⟩] }

/-- The state before the search: constructor, lines 127-134, and `reset_topology`, lines 178-194. -/
def start : State A :=
  ⟨⟨fun _ => .white, fun _ => none, fun _ => 0, fun v => v, [], []⟩, fun _ => none, fun _ => false, []⟩

/-- `dfs_search`, lines 239-298. -/
def dfsSearch (G : Grid A) : Option (State A) := G.sources.foldlM (sourceStep (edges G) G.nTotal) start

/-! ## Branches -/

/-- The coupling of a node: its island and its bus. -/
def State.node (s : State A) (x : Nat) : Option (Nat × Nat) := do
  let g ← s.visit.group x
  let p ← s.pos x
  some (g, p)

/-- `get_group_pos_if`, lines 371-377. The first `Option` is the assertion. -/
def sidePos (g : Nat) (conn : Bool) (math : Option (Nat × Nat)) : Option (Option Nat) :=
  if conn = false then some none
  else
    match math with
    | some (g', p) => if g' = g then some (some p) else none
    | none => none

/-- The result of the coupling of branches: the branches of every island and where every branch is. -/
structure Coupled where
  branchBus : Nat → List (Option Nat × Option Nat)
  branch : List (Option (Nat × Nat))
  branch3 : List (Option (Nat × (Fin 3 → Nat)))

/-- Appends a branch to an island and returns its position. -/
def Coupled.push (c : Coupled) (g : Nat) (b : Option Nat × Option Nat) : Coupled :=
  { c with branchBus := Function.update c.branchBus g (c.branchBus g ++ [b]) }

/-- The island of a branch, lines 391-399. -/
def branchGroup (b : Branch A) (mi mj : Option (Nat × Nat)) : Option Nat :=
  if b.iConn && mi.isSome then mi.map (·.1) else if b.jConn && mj.isSome then mj.map (·.1) else none

/-- One branch of `couple_branch`, lines 379-415. -/
def coupleStep (s : State A) (c : Coupled) (b : Branch A) : Option Coupled :=
  let mi := s.node b.i
  let mj := s.node b.j
  match branchGroup b mi mj with
  | none => some { c with branch := c.branch ++ [none] }
  | some g => do
    let f ← sidePos g b.iConn mi
    let t ← sidePos g b.jConn mj
    some { c.push g (f, t) with branch := c.branch ++ [some (g, (c.branchBus g).length)] }

/-- The island of a branch with three sides, lines 427-436: the last connected side counts. -/
def branch3Group (b : Branch3 A) (m : Fin 3 → Option (Nat × Nat)) : Option Nat :=
  [(0 : Fin 3), 1, 2].foldl (fun g n => if b.conn n && (m n).isSome then (m n).map (·.1) else g) none

/-- One side of a branch with three sides, lines 449-457. -/
def sideStep (s : State A) (b : Branch3 A) (g pj : Nat) (c : Coupled × (Fin 3 → Nat)) (n : Fin 3) : Option (Coupled × (Fin 3 → Nat)) := do
  let f ← sidePos g (b.conn n) (s.node (b.node n))
  some (c.1.push g (f, some pj), Function.update c.2 n (c.1.branchBus g).length)

/-- One branch with three sides and internal node `j` of `couple_branch`, lines 417-461. -/
def couple3Step (s : State A) (c : Coupled) (b : Branch3 A × Nat) : Option Coupled :=
  match branch3Group b.1 (fun n => s.node (b.1.node n)) with
  | none => if s.node b.2 = none then some { c with branch3 := c.branch3 ++ [none] } else none
  | some g =>
    match s.node b.2 with
    | none => none
    | some (gj, pj) =>
      if gj = g then do
        let r ← [(0 : Fin 3), 1, 2].foldlM (sideStep s b.1 g pj) (c, fun _ => 0)
        some { r.1 with branch3 := c.branch3 ++ [some (g, r.2)] }
      else none

/-- `couple_branch`, lines 370-462. -/
def coupleBranch (G : Grid A) (s : State A) : Option Coupled := do
  let c ← G.branches.foldlM (coupleStep s) ⟨fun _ => [], [], []⟩
  (G.branch3s.zipIdx.map fun b => (b.1, G.nNode + b.2)).foldlM (couple3Step s) c

/-! ## Appliances and sensors -/

/-- The first loop of `couple_object_components`, lines 519-530, for one island: the objects and the components. -/
def collectFor (find : Nat → Option (Nat × Nat)) (include_ : Nat → Bool) (n g : Nat) : List (Nat × Nat) :=
  (List.range n).filterMap fun i =>
    if include_ i then (find i).bind fun m => if m.1 = g then some (m.2, i) else none else none

/-- How the components of an island are ordered: `build_dense_mapping` or `build_sparse_mapping`, lines 540-551. Both give the components in the
order of their objects; the result is the object of every component in the new order, and the old numbers. -/
def groupObjects (criterion : Nat → Nat → Bool) (obj : List Nat) (nObj : Nat) : Option (List Nat × List Nat) := do
  let m ← Index.buildDenseMapping criterion obj nObj
  some (m.indvector, m.reorder)

/-- One component of the last loop of `couple_object_components`, lines 555-557. -/
def storeStep (g : Nat) (components : List Nat) (c : Nat → Option (Nat × Nat)) (x : Nat × Nat) : Option (Nat → Option (Nat × Nat)) := do
  let i ← components[x.1]?
  some (Function.update c i (some (g, x.2)))

/-- The last loop of `couple_object_components`, lines 553-558, for one island. -/
def storeCoupling (g : Nat) (components reorder : List Nat) (coupling : Nat → Option (Nat × Nat)) : Option (Nat → Option (Nat × Nat)) :=
  reorder.zipIdx.foldlM (storeStep g components) coupling

/-- One island of `couple_object_components`, lines 533-559. -/
def coupleIsland (criterion : Nat → Nat → Bool) (find : Nat → Option (Nat × Nat)) (include_ : Nat → Bool) (n : Nat) (nObj : Nat → Nat)
    (s : (Nat → List Nat) × (Nat → Option (Nat × Nat))) (g : Nat) : Option ((Nat → List Nat) × (Nat → Option (Nat × Nat))) := do
  let sel := collectFor find include_ n g
  let (dense, reorder) ← groupObjects criterion (sel.map (·.1)) (nObj g)
  let c ← storeCoupling g (sel.map (·.2)) reorder s.2
  some (Function.update s.1 g dense, c)

/-- `couple_object_components`, lines 509-561: per island the object of every component, and the coupling of the components. `find` is the
object finder, lines 464-503. -/
def coupleObjects (criterion : Nat → Nat → Bool) (find : Nat → Option (Nat × Nat)) (include_ : Nat → Bool) (n : Nat) (nIsland : Nat)
    (nObj : Nat → Nat) (coupling : Nat → Option (Nat × Nat)) : Option ((Nat → List Nat) × (Nat → Option (Nat × Nat))) :=
  (List.range nIsland).foldlM (coupleIsland criterion find include_ n nObj) (fun _ => [], coupling)

/-- Where the shunts, or the loads and generators, or the sources of a grid go, lines 563-592: `node` is the node of each of them. -/
def coupleAppliances (criterion : Nat → Nat → Bool) (s : State A) (node : List Nat) (include_ : Nat → Bool) :
    Option ((Nat → List Nat) × (Nat → Option (Nat × Nat))) :=
  coupleObjects criterion (fun i => node[i]?.bind s.node) include_ node.length s.islands.length
    (fun g => (s.islands[g]?.map (·.phaseShift.length)).getD 0) fun _ => none

/-- `build_topology`, lines 139-156, as far as nodes and branches go. -/
def build (G : Grid A) : Option (State A × Coupled) := do
  let s ← dfsSearch G
  let c ← coupleBranch G s
  some (s, c)

end PGM.Topology
