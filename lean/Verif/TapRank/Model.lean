import Mathlib.Logic.Function.Basic

/-!
# Model of the ranking of regulated transformers

`P/optimizer/tap_position_optimizer.hpp` lines 71-440 (`P` =
`power_grid_model_c/power_grid_model/include/power_grid_model`).

Simplifications. Nodes are given by their sequence number: that an ID leads to the right node is the subject of C04 and
C42. The distance `infty` is `none`, and `last_rank` (`infty - 1`) is a rank of its own above all numbers, that is, the
counters do not overflow. The compressed sparse row graph is a list of edges; its out-edges are visited in the order of
insertion, which is what the multi-pass constructor of Boost's graph gives; nothing proved depends on it.
-/

namespace PGM.TapRank

/-- A component with two sides: line, link, generic branch, asymmetric line. -/
structure Branch where
  fromNode : Nat
  toNode : Nat
  fromStatus : Bool
  toStatus : Bool
deriving DecidableEq

/-- A transformer. -/
structure Trafo extends Branch where
  id : Int
deriving DecidableEq

/-- A three-winding transformer. -/
structure Trafo3 where
  id : Int
  node : Fin 3 → Nat
  status : Fin 3 → Bool
  tapSide : Fin 3

/-- `ComponentType` of the regulated object, as far as a tap regulator distinguishes it. -/
inductive Kind | branch | branch3
deriving DecidableEq

/-- A `TransformerTapRegulator`; `side` is the underlying value of `ControlSide` (`P/common/enum.hpp` line 27). -/
structure Regulator where
  status : Bool
  kind : Kind
  object : Int
  side : Nat
deriving DecidableEq

/-- A source. -/
structure Source where
  node : Nat
  status : Bool
deriving DecidableEq

/-- The components of a model that could influence the ranking. -/
structure Grid where
  nodes : Nat
  trafos : List Trafo
  trafos3 : List Trafo3
  lines : List Branch
  links : List Branch
  genericBranches : List Branch
  asymLines : List Branch
  sources : List Source
  regulators : List Regulator

/-- `Idx2D` of a (three-winding) transformer: its type and its position among the components of that type. -/
inductive TIdx
  | two (pos : Nat)
  | three (pos : Nat)
deriving DecidableEq, Repr

/-- An edge with its `TrafoGraphEdge`, lines 82-107; `reg = none` is `unregulated_idx`. -/
structure Edge where
  src : Nat
  tgt : Nat
  reg : Option TIdx
  weight : Nat
  id : Int
deriving DecidableEq

/-- `na_IntID`. -/
def naID : Int := -2147483648

/-- `unregulated_edge_prop` on an edge, line 109. -/
def freeEdge (a b : Nat) : Edge := ⟨a, b, none, 0, naID⟩

/-- `set::emplace` into a `RegulatedTrafos` (ordered by ID and control side), line 120. -/
def setInsert (x : Int × Nat) : List (Int × Nat) → List (Int × Nat)
  | [] => [x]
  | y :: l => if x = y then y :: l else if x.1 < y.1 ∨ (x.1 = y.1 ∧ x.2 < y.2) then x :: y :: l else y :: setInsert x l

/-- One regulator of the loop of `retrieve_regulator_info`, lines 263-273. -/
def retrieveStep (acc : List (Int × Nat) × List (Int × Nat)) (r : Regulator) : List (Int × Nat) × List (Int × Nat) :=
  if !r.status then acc
  else if r.kind = .branch then (setInsert (r.object, r.side) acc.1, acc.2)
  else (acc.1, setInsert (r.object, r.side) acc.2)

/-- `retrieve_regulator_info`, lines 260-275. -/
def retrieve (G : Grid) : List (Int × Nat) × List (Int × Nat) := G.regulators.foldl retrieveStep ([], [])

/-- `regulated_trafos_contain`, lines 123-130: the control side if there is one. -/
def controlSide (s : List (Int × Nat)) (id : Int) : Option Nat := (s.find? (fun x => x.1 = id)).map (·.2)

/-- `add_edge` for one transformer, lines 215-232. -/
def trafoEdges (reg : List (Int × Nat)) (pos : Nat) (t : Trafo) : List Edge :=
  if !t.fromStatus || !t.toStatus then []
  else match controlSide reg t.id with
    | some c =>
      let control := if c = 0 then t.fromNode else t.toNode
      let other := if c = 0 then t.toNode else t.fromNode
      [⟨other, control, some (.two pos), 1, t.id⟩]
    | none => [freeEdge t.fromNode t.toNode, freeEdge t.toNode t.fromNode]

/-- One pair of sides in `process_trafo3w_edge`, lines 165-190. -/
def pairEdges (reg : List (Int × Nat)) (pos : Nat) (t : Trafo3) (first second : Fin 3) : List Edge :=
  if !t.status first || !t.status second then []
  else
    let tapFirst := t.tapSide = first
    match controlSide reg t.id with
    | some c =>
      if tapFirst ∨ t.tapSide = second then
        let tapNode := if tapFirst then t.node first else t.node second
        let otherNode := if tapFirst then t.node second else t.node first
        if c = t.tapSide.val then [⟨otherNode, tapNode, some (.three pos), 1, t.id⟩]
        else [⟨tapNode, otherNode, some (.three pos), 1, t.id⟩]
      else [freeEdge (t.node first) (t.node second), freeEdge (t.node second) (t.node first)]
    | none => [freeEdge (t.node first) (t.node second), freeEdge (t.node second) (t.node first)]

/-- `process_trafo3w_edge`, lines 154-192. -/
def trafo3Edges (reg : List (Int × Nat)) (pos : Nat) (t : Trafo3) : List Edge :=
  pairEdges reg pos t 0 1 ++ pairEdges reg pos t 0 2 ++ pairEdges reg pos t 1 2

/-- `add_edge` for one other branch, lines 246-250. -/
def branchEdges (b : Branch) : List Edge :=
  if !b.fromStatus || !b.toStatus then [] else [freeEdge b.fromNode b.toNode, freeEdge b.toNode b.fromNode]

/-- `add_edges<Transformer, ThreeWindingTransformer, Line, Link>`, lines 254-258 and 289. -/
def graphEdges (G : Grid) : List Edge :=
  let reg := retrieve G
  (G.trafos.zipIdx.flatMap fun p => trafoEdges reg.1 p.2 p.1) ++
  (G.trafos3.zipIdx.flatMap fun p => trafo3Edges reg.2 p.2 p.1) ++
  G.lines.flatMap branchEdges ++ G.links.flatMap branchEdges

/-- Marking of the sources in `build_transformer_graph`, lines 296-303: every source overwrites the mark of its node. -/
def isSource (G : Grid) : Nat → Bool := G.sources.foldl (fun m s => Function.update m s.node s.status) (fun _ => false)

/-- `vertex_distances`. -/
abbrev Dist := Nat → Option Nat

/-- `a < vertex_distances[t]`. -/
def below (a : Nat) : Option Nat → Bool
  | none => true
  | some b => a < b

/-- The out-edges of a vertex. -/
def outEdges (es : List Edge) (u : Nat) : List Edge := es.filter (fun e => e.src = u)

/-- One out-edge in `process_edges_dijkstra`, lines 323-332. Here `src` is the vertex taken from the queue, whose distance
is a number: otherwise the addition in the code would overflow. -/
def relaxEdge (s : Dist × List (Nat × Nat)) (e : Edge) : Dist × List (Nat × Nat) :=
  match s.1 e.src with
  | none => s
  | some a =>
    if below (a + e.weight) (s.1 e.tgt) then
      (Function.update s.1 e.tgt (some (a + e.weight)), (a + e.weight, e.tgt) :: s.2)
    else s

/-- The order of `std::pair`. -/
def pairLE (x y : Nat × Nat) : Bool := x.1 < y.1 ∨ (x.1 = y.1 ∧ x.2 ≤ y.2)

/-- The smallest entry of a priority queue, `pq.top()`. -/
def top (x : Nat × Nat) (l : List (Nat × Nat)) : Nat × Nat := l.foldl (fun m y => if pairLE m y then m else y) x

/-- The loop of `process_edges_dijkstra`, lines 315-333; `none` if the fuel does not suffice. -/
def dijkstraLoop (es : List Edge) : Nat → List (Nat × Nat) → Dist → Option Dist
  | _, [], d => some d
  | 0, _ :: _, _ => none
  | fuel + 1, x :: l, d =>
    let m := top x l
    let rest := (x :: l).erase m
    if d m.2 = some m.1 then
      let s := (outEdges es m.2).foldl relaxEdge (d, rest)
      dijkstraLoop es fuel s.2 s.1
    else dijkstraLoop es fuel rest d

/-- `process_edges_dijkstra`, lines 308-334. -/
def dijkstra (es : List Edge) (fuel : Nat) (start : Nat) (d : Dist) : Option Dist :=
  dijkstraLoop es fuel [(0, start)] (Function.update d start (some 0))

/-- One vertex in `get_edge_weights`, lines 340-344. -/
def searchStep (src : Nat → Bool) (es : List Edge) (fuel : Nat) (d : Option Dist) (v : Nat) : Option Dist :=
  match d with
  | none => none
  | some d => if src v then dijkstra es fuel v d else some d

/-- `vertex_distances` after the searches, lines 339-344. -/
def distances (src : Nat → Bool) (n : Nat) (es : List Edge) (fuel : Nat) : Option Dist :=
  (List.range n).foldl (searchStep src es fuel) (some fun _ => none)

/-- An entry of the result of `get_edge_weights`; `rank = none` is `last_rank`. -/
structure Ranked where
  trafo : TIdx
  rank : Option Nat
  id : Int
deriving DecidableEq

/-- One edge in `get_edge_weights`, lines 349-385: the results and the IDs of the transformers controlled from the wrong
side. `edge_src_rank != edge_tgt_rank - 1` is written without subtraction. -/
def weightStep (d : Dist) (acc : List Ranked × List Int) (e : Edge) : List Ranked × List Int :=
  match e.reg with
  | none => acc
  | some t =>
    match d e.src, d e.tgt with
    | none, none => acc
    | none, some _ => (acc.1, acc.2 ++ [e.id])
    | some _, none => (acc.1, acc.2 ++ [e.id])
    | some a, some b => if a + 1 ≠ b then (acc.1 ++ [⟨t, none, e.id⟩], acc.2) else (acc.1 ++ [⟨t, some b, e.id⟩], acc.2)

/-- `BGL_FORALL_EDGES`: by source vertex. -/
def allEdges (n : Nat) (es : List Edge) : List Edge := (List.range n).flatMap (outEdges es)

/-- Insertion into a sorted list without repetition: `std::ranges::sort` and `unique`, lines 390-392. -/
def insertId (x : Int) : List Int → List Int
  | [] => [x]
  | y :: l => if x < y then x :: y :: l else if x = y then y :: l else y :: insertId x l

/-- Outcomes. -/
inductive Outcome (α : Type)
  | ok (a : α)
  /-- `AutomaticTapInputError` with the IDs it names -/
  | wrongSide (ids : List Int)
  /-- the loop did not end within the fuel -/
  | running
deriving DecidableEq, Repr

/-- `get_edge_weights`, lines 338-407. -/
def edgeWeights (G : Grid) (fuel : Nat) : Outcome (List Ranked) :=
  match distances (isSource G) G.nodes (graphEdges G) fuel with
  | none => .running
  | some d =>
    let r := (allEdges G.nodes (graphEdges G)).foldl (weightStep d) ([], [])
    if r.2 ≠ [] then .wrongSide (r.2.foldr insertId []) else .ok r.1

/-- `x.weight < y.weight` of ranks. -/
def rankLT : Option Nat → Option Nat → Bool
  | some a, some b => a < b
  | some _, none => true
  | none, _ => false

/-- `trafo.weight > previous_weight`, line 418; at first `previous_weight` is the lowest number, here `none`. -/
def isAbove (prev : Option (Option Nat)) (r : Option Nat) : Bool :=
  match prev with
  | none => true
  | some p => rankLT p r

/-- One entry of the loop in `rank_transformers`, lines 417-426. The groups are in reverse order, so that `groups.back()`
is the head; the initial weight makes the first entry open a group. -/
def groupStep (acc : List (List TIdx) × Option (Option Nat)) (x : Ranked) : List (List TIdx) × Option (Option Nat) :=
  if isAbove acc.2 x.rank then ([x.trafo] :: acc.1, some x.rank)
  else match acc.1 with
    | [] => acc
    | g :: gs => (if x.trafo ∈ g then g :: gs else (g ++ [x.trafo]) :: gs, acc.2)

/-- `rank_transformers` on the weights, lines 409-428. `std::ranges::sort` leaves the order within a rank open: `sort` is
any function that sorts by rank. -/
def groups (sort : List Ranked → List Ranked) (l : List Ranked) : List (List TIdx) :=
  ((sort l).foldl groupStep ([], none)).1.reverse

/-- `rank_transformers` of a model, lines 430-433. -/
def rankTransformers (sort : List Ranked → List Ranked) (fuel : Nat) (G : Grid) : Outcome (List (List TIdx)) :=
  match edgeWeights G fuel with
  | .ok l => .ok (groups sort l)
  | .wrongSide ids => .wrongSide ids
  | .running => .running

end PGM.TapRank
