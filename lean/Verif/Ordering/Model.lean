/-!
# Minimum degree ordering (C13)

Prefix of all paths: `P/` = `/repo/power_grid_model_c/power_grid_model/include/power_grid_model/`. Model of `P/sparse_ordering.hpp`.

Simplifications: vertices are natural numbers. A `std::map<Idx, IdxVector>` is its keys in increasing order and the vectors, which are
empty outside of the keys. `std::map<Idx, std::set<Idx>>` of the degree lookup is flattened to its pairs in increasing order, which is
possible because empty sets are removed. Undefined behaviour and failing assertions are `none`.
-/

namespace PGM.Ordering

/-- `std::map<Idx, IdxVector>`. -/
structure Adj where
  keys : List Nat
  nb : Nat → List Nat

/-- Inserting into a sorted sequence of different values. -/
def insertKey (k : Nat) (keys : List Nat) : List Nat :=
  if k ∈ keys then keys else keys.filter (· < k) ++ k :: keys.filter (k < ·)

/-- `d[k]`: a missing key is inserted with an empty vector. -/
def Adj.touch (d : Adj) (k : Nat) : Adj := { d with keys := insertKey k d.keys }

/-- `d[k].push_back(e)`. -/
def Adj.push (d : Adj) (k e : Nat) : Adj :=
  { keys := insertKey k d.keys, nb := fun j => if j = k then d.nb k ++ [e] else d.nb j }

/-- `d.erase(k)`. -/
def Adj.erase (d : Adj) (k : Nat) : Adj :=
  { keys := d.keys.filter (· ≠ k), nb := fun j => if j = k then [] else d.nb j }

/-- `std::erase(d[k], e)`. -/
def Adj.without (d : Adj) (k e : Nat) : Adj :=
  { keys := insertKey k d.keys, nb := fun j => if j = k then (d.nb k).filter (· ≠ e) else d.nb j }

/-- `DegreeLookup`, lines 21-55. -/
structure Lookup where
  degree : Nat → Option Nat
  /-- `degrees_to_vertex`: degree and vertex. -/
  order : List (Nat × Nat)

/-- The order of the pairs. -/
def pairLt (a b : Nat × Nat) : Bool := a.1 < b.1 || (a.1 == b.1 && a.2 < b.2)

/-- Inserting a pair. -/
def insertPair (x : Nat × Nat) (l : List (Nat × Nat)) : List (Nat × Nat) :=
  if x ∈ l then l else l.filter (pairLt · x) ++ x :: l.filter (pairLt x)

/-- `DegreeLookup::set`, lines 23-31, with `remove_degree`, lines 46-53. -/
def Lookup.set (g : Lookup) (u deg : Nat) : Lookup :=
  match g.degree u with
  | some old => ⟨fun v => if v = u then some deg else g.degree v, insertPair (deg, u) (g.order.filter (· ≠ (old, u)))⟩
  | none => ⟨fun v => if v = u then some deg else g.degree v, insertPair (deg, u) g.order⟩

/-- `DegreeLookup::erase`, lines 33-41. -/
def Lookup.erase (g : Lookup) (u : Nat) : Lookup :=
  match g.degree u with
  | some old => ⟨fun v => if v = u then none else g.degree v, g.order.filter (· ≠ (old, u))⟩
  | none => g

/-- `min_element`, lines 59-62: the first vertex of the lowest degree. -/
def Lookup.min (g : Lookup) : Option Nat := g.order.head?.map (·.2)

/-- `comp_size_degrees_graph`, lines 77-87. -/
def startLookup (d : Adj) : Lookup := d.keys.foldl (fun g k => g.set k (d.nb k).length) ⟨fun _ => none, []⟩

/-- One vertex of `make_clique`, lines 92-98: all the others are its neighbours. -/
def cliqueStep (l : List Nat) (d : Adj) (i : Nat) : Adj :=
  match l[i]? with
  | some k => { keys := insertKey k d.keys, nb := fun j => if j = k then l.eraseIdx i else d.nb j }
  | none => d

/-- `make_clique`, lines 89-100. -/
def makeClique (l : List Nat) : Adj := (List.range l.length).foldl (cliqueStep l) ⟨[], fun _ => []⟩

/-- `check_indistguishable`, lines 102-121: the neighbours with the same closed neighbourhood. Sorted vectors are equal exactly if
they are permutations of each other. `adj` throws if a vertex is missing. -/
def indistinguishable (u : Nat) (d : Adj) : Option (List Nat × List Nat) :=
  if u ∈ d.keys ∧ ∀ v ∈ d.nb u, v ∈ d.keys then
    some (d.nb u, (d.nb u).filter fun v => (d.nb u ++ [u]).isPerm (d.nb v ++ [v]))
  else none

/-- `in_graph`, lines 123-126. -/
def inGraph (k e : Nat) (d : Adj) : Bool := decide (k ∈ d.keys) && decide (e ∈ d.nb k)

/-- One neighbour in the removal of a vertex, lines 145-150. -/
def unlinkStep (uu : Nat) (s : Adj × List Nat) (e : Nat) : Adj × List Nat :=
  let d := s.1.without e uu
  (d, if d.nb e = [] then s.2 ++ [e] else s.2)

/-- The removal of one vertex, lines 138-158. The vector that is iterated over must not be changed. -/
def removeOne (u : Nat) (s : List Nat × Adj × Lookup) (uu : Nat) : Option (List Nat × Adj × Lookup) :=
  let nbs := if uu ≠ u then s.1.filter (· ≠ uu) else s.1
  let g := s.2.2.erase uu
  let d := s.2.1.touch uu
  if uu ∈ d.nb uu then none
  else
    let r := (d.nb uu).foldl (unlinkStep uu) (d, [])
    some (nbs, (r.2 ++ [uu]).foldl Adj.erase r.1, g)

/-- One edge of the clique, lines 165-172. -/
def fillStep (k : Nat) (s : Adj × List (Nat × Nat)) (e : Nat) : Adj × List (Nat × Nat) :=
  if inGraph k e s.1 then s else ((s.1.push k e).push e k, s.2 ++ [(k, e)])

/-- `remove_vertices_update_degrees`, lines 128-181. -/
def removeVertices (u : Nat) (d : Adj) (g : Lookup) (fills : List (Nat × Nat)) :
    Option (List Nat × Adj × Lookup × List (Nat × Nat)) := do
  let (l, rl) ← indistinguishable u d
  let (nbs, d, g) ← (rl ++ [u]).foldlM (removeOne u) (l, d, g)
  let dd := makeClique nbs
  let (d, fills) := dd.keys.foldl (fun s k => (dd.nb k).foldl (fillStep k) s) (d, fills)
  let g := nbs.foldl (fun g e => g.set e (if e ∈ d.keys then (d.nb e).length else 0)) g
  some (rl, d, g, fills)

/-- One key of the loop that makes the graph symmetric, lines 185-189. Adding to the vector that is iterated over is undefined. -/
def symmKey (d : Adj) (k : Nat) : Option Adj :=
  if k ∈ d.nb k then none else some ((d.nb k).foldl (fun d e => d.push e k) d)

/-- An upper bound of the vertices. -/
def bound (d : Adj) : Nat := (d.keys ++ d.keys.flatMap d.nb).foldl max 0 + 1

/-- The loop over the map, lines 185-189: in increasing order of the keys, including keys that are inserted in front of the iterator. -/
def symmetrise (d : Adj) : Option Adj :=
  (List.range (bound d)).foldlM (fun d k => if k ∈ d.keys then symmKey d k else some d) d

/-- A vector via `std::set`: its different values in increasing order. -/
def sortedSet (l : List Nat) : List Nat := (List.range (l.foldl max 0 + 1)).filter (· ∈ l)

/-- Lines 190-193. -/
def dedup (d : Adj) : Adj := { d with nb := fun k => if k ∈ d.keys then sortedSet (d.nb k) else d.nb k }

/-- The main loop, lines 201-218. -/
def orderLoop : Nat → Adj → Lookup → List Nat → List (Nat × Nat) → Option (List Nat × List (Nat × Nat))
  | 0, _, _, alpha, fills => some (alpha, fills)
  | left + 1, d, g, alpha, fills => do
    let u ← g.min
    let alpha := alpha ++ [u]
    if d.keys.length = 2 then
      let first ← d.keys.head?
      let to ← match d.nb first with
        | [t] => some t
        | _ => none
      some (alpha ++ [if u = first then to else first], fills)
    else
      let (rl, d, g, fills) ← removeVertices u d g fills
      let alpha := alpha ++ rl
      if d.keys = [] then some (alpha, fills) else orderLoop left d g alpha fills

/-- `minimum_degree_ordering`, lines 183-219. -/
def minimumDegreeOrdering (d : Adj) : Option (List Nat × List (Nat × Nat)) := do
  let d ← symmetrise d
  let d := dedup d
  orderLoop d.keys.length d (startLookup d) [] []

end PGM.Ordering
