import Verif.TapRank.Model

/-!
# Specification of the ranks of regulated transformers (C26)

The specification speaks of the components of the grid, not of the graph that the code builds.
-/

namespace PGM.TapRank

/-- Both sides are connected. -/
def Branch.Closed (b : Branch) : Prop := b.fromStatus = true ∧ b.toStatus = true

/-- A branch without transformation, of whatever type. -/
def Grid.Plain (G : Grid) (b : Branch) : Prop := b ∈ G.lines ∨ b ∈ G.links ∨ b ∈ G.genericBranches ∨ b ∈ G.asymLines

/-- An active regulator controls side `side` of the object. -/
def Grid.Controlled (G : Grid) (k : Kind) (object : Int) (side : Nat) : Prop :=
  ∃ r ∈ G.regulators, r.status = true ∧ r.kind = k ∧ r.object = object ∧ r.side = side

/-- The transformer `t` transports power from node `a` to node `b` and is regulated in that direction: for a transformer
`b` is the controlled side; for a three-winding transformer one of them is the tap side, and it is the destination if and
only if it is the controlled side. -/
inductive Regulates (G : Grid) : TIdx → Int → Nat → Nat → Prop
  | fromSide {p : Nat} {t : Trafo} (h : G.trafos[p]? = some t) (hc : t.Closed) (hr : G.Controlled .branch t.id 0) :
      Regulates G (.two p) t.id t.toNode t.fromNode
  | toSide {p : Nat} {t : Trafo} (h : G.trafos[p]? = some t) (hc : t.Closed) (hr : G.Controlled .branch t.id 1) :
      Regulates G (.two p) t.id t.fromNode t.toNode
  | tapControlled {p : Nat} {t : Trafo3} {x : Fin 3} (h : G.trafos3[p]? = some t) (hx : x ≠ t.tapSide)
      (h1 : t.status t.tapSide = true) (h2 : t.status x = true) (hr : G.Controlled .branch3 t.id t.tapSide.val) :
      Regulates G (.three p) t.id (t.node x) (t.node t.tapSide)
  | otherControlled {p : Nat} {t : Trafo3} {x : Fin 3} {c : Nat} (h : G.trafos3[p]? = some t) (hx : x ≠ t.tapSide)
      (h1 : t.status t.tapSide = true) (h2 : t.status x = true) (hr : G.Controlled .branch3 t.id c)
      (hc : c ≠ t.tapSide.val) :
      Regulates G (.three p) t.id (t.node t.tapSide) (t.node x)

/-- Nodes that are connected without any regulated transformer in between. -/
inductive Joined (G : Grid) : Nat → Nat → Prop
  | plain {b : Branch} (h : G.Plain b) (hc : b.Closed) : Joined G b.fromNode b.toNode
  | trafo {t : Trafo} (h : t ∈ G.trafos) (hc : t.Closed) (hr : ∀ c, ¬ G.Controlled .branch t.id c) :
      Joined G t.fromNode t.toNode
  | trafo3 {t : Trafo3} {x y : Fin 3} (h : t ∈ G.trafos3) (hxy : x ≠ y) (h1 : t.status x = true) (h2 : t.status y = true)
      (hr : (∀ c, ¬ G.Controlled .branch3 t.id c) ∨ (x ≠ t.tapSide ∧ y ≠ t.tapSide)) :
      Joined G (t.node x) (t.node y)
  | symm {a b : Nat} (h : Joined G a b) : Joined G b a

/-- There is a path from an active source to the node that passes `k` regulated transformers, all of them in the direction
of regulation. -/
inductive Path (G : Grid) : Nat → Nat → Prop
  | source {s : Source} (h : s ∈ G.sources) (hs : s.status = true) : Path G s.node 0
  | join {a b k : Nat} (h : Path G a k) (hj : Joined G a b) : Path G b k
  | cross {a b k : Nat} {t : TIdx} {id : Int} (h : Path G a k) (hr : Regulates G t id a b) : Path G b (k + 1)

/-- The number of regulated transformers on the best path from a source. -/
def Best (G : Grid) (v k : Nat) : Prop := Path G v k ∧ ∀ k', Path G v k' → k ≤ k'

/-- The node can be supplied from a source, in the direction of regulation. -/
def Supplied (G : Grid) (v : Nat) : Prop := ∃ k, Path G v k

/-- The rank of a regulated transformer: the number of regulated transformers on the best path to its controlled side if
such a path may lead through it (`some`); if the controlled side is at least as close to a source as the other, it comes
last (`none`). -/
def HasRank (G : Grid) (t : TIdx) (r : Option Nat) : Prop :=
  ∃ id a b ka kb, Regulates G t id a b ∧ Best G a ka ∧ Best G b kb ∧
    ((kb = ka + 1 ∧ r = some kb) ∨ (kb ≤ ka ∧ r = none))

/-- Lower ranks come first, and those without number last. -/
def Before : Option Nat → Option Nat → Prop
  | some a, some b => a < b
  | some _, none => True
  | none, _ => False

/-- The transformer with this ID is controlled against the direction of supply. -/
def WrongSide (G : Grid) (id : Int) : Prop := ∃ t a b, Regulates G t id a b ∧ Supplied G b ∧ ¬ Supplied G a

/-- Connection to an active source through closed components, in whatever direction. -/
inductive Reached (G : Grid) : Nat → Prop
  | source {s : Source} (h : s ∈ G.sources) (hs : s.status = true) : Reached G s.node
  | join {a b : Nat} (h : Reached G a) (hj : Joined G a b) : Reached G b
  | forth {a b : Nat} {t : TIdx} {id : Int} (h : Reached G a) (hr : Regulates G t id a b) : Reached G b
  | back {a b : Nat} {t : TIdx} {id : Int} (h : Reached G b) (hr : Regulates G t id a b) : Reached G a

/-- What the construction of a model guarantees (C42): references are in range, the regulated objects are distinct, and the
IDs of the transformers are distinct. -/
structure Valid (G : Grid) : Prop where
  trafos : ∀ t ∈ G.trafos, t.fromNode < G.nodes ∧ t.toNode < G.nodes
  trafos3 : ∀ t ∈ G.trafos3, ∀ x, t.node x < G.nodes
  plain : ∀ b, G.Plain b → b.fromNode < G.nodes ∧ b.toNode < G.nodes
  sources : ∀ s ∈ G.sources, s.node < G.nodes
  sides : ∀ r ∈ G.regulators, (r.kind = .branch → r.side ≤ 1) ∧ r.side ≤ 2
  objects : (G.regulators.map (·.object)).Nodup

/-- The grids whose ranking is right: every branch type but the two that the graph leaves out, and sources at one node are
all on or all off. -/
structure Regular (G : Grid) : Prop where
  generic : ∀ b ∈ G.genericBranches, ¬ b.Closed
  asym : ∀ b ∈ G.asymLines, ¬ b.Closed
  sources : ∀ s ∈ G.sources, ∀ s' ∈ G.sources, s.node = s'.node → s.status = s'.status

/-- What is required of `std::ranges::sort` by weight. -/
def Sorts (sort : List Ranked → List Ranked) : Prop :=
  ∀ l, (sort l).Perm l ∧ (sort l).Pairwise (fun x y => ¬ Before y.rank x.rank)

/-- The groups are the sets of transformers of equal rank, in the order of their ranks: the transformers of group `i` are
those of rank `rs[i]`, and no rank is missing. -/
def OrderedByRank (rank : TIdx → Option Nat → Prop) (gs : List (List TIdx)) : Prop :=
  ∃ rs : List (Option Nat), rs.length = gs.length ∧ rs.Pairwise Before ∧
    (∀ (i : Nat) (r : Option Nat) (g : List TIdx), rs[i]? = some r → gs[i]? = some g → g ≠ [] ∧ g.Nodup ∧ ∀ t, t ∈ g ↔ rank t r) ∧
    ∀ t r, rank t r → r ∈ rs

end PGM.TapRank
