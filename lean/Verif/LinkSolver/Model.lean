import Mathlib.Algebra.Field.Defs
import Mathlib.Algebra.BigOperators.Group.Finset.Basic
import Mathlib.Order.Interval.Finset.Nat
import Mathlib.Logic.Function.Basic
import Mathlib.Data.Int.Cast.Defs

/-!
# Currents through the links of a supernode (C33)

Model of `/repo/power_grid_model_c/power_grid_model/include/power_grid_model/link_solver.hpp`.

Simplifications: `DoubleComplex` is a field; the small integers of the matrix (`IntS`) are integers without a bound; vectors indexed by edges, nodes or
rows are functions, and growing index lists are lists. The coordinate list matrix is keyed by `row * columns + column`, which is unique because columns
are in range, so it is a function of row and column. The history of an edge keeps the rows; its events are written and never read. The order in
which an `unordered_set` is walked through is a parameter, `ord`, that may be any rearrangement.
-/

namespace PGM.LinkSolver

variable {K : Type} [Field K]

/-- `CooSparseMatrix`, lines 38-68. -/
abbrev Coo := Nat → Nat → Option Int

/-- `set_value`, lines 43-46. -/
def Coo.set (M : Coo) (v : Int) (r c : Nat) : Coo := Function.update M r (Function.update (M r) c (some v))

/-- `add_to_value`, lines 54-67. -/
def Coo.addTo (M : Coo) (v : Int) (r c : Nat) : Coo :=
  match M r c with
  | some w => Function.update M r (Function.update (M r) c (if w + v = 0 then none else some (w + v)))
  | none => if v = 0 then M else M.set v r c

/-- The variables of `forward_elimination`, lines 137-146, and of `ReducedEchelonForm`, lines 75-81. -/
structure Fwd (K : Type) where
  edges : Nat → Nat × Nat
  adj : Nat → List Nat
  loads : Nat → K
  mat : Coo
  hist : Nat → List Nat
  free : List Nat
  piv : List Nat
  rhs : Nat → K
  contracted : Nat → Bool

/-- `std::unordered_set::insert`. -/
def insertEdge (a : Nat) (l : List Nat) : List Nat := if a ∈ l then l else a :: l

/-- One edge of `build_adjacency_map`, lines 94-98. -/
def adjStep (edges : Nat → Nat × Nat) (adj : Nat → List Nat) (i : Nat) : Nat → List Nat :=
  let adj1 := Function.update adj (edges i).1 (insertEdge i (adj (edges i).1))
  Function.update adj1 (edges i).2 (insertEdge i (adj1 (edges i).2))

/-- `build_adjacency_map`, lines 92-100. -/
def buildAdj (edges : Nat → Nat × Nat) (m : Nat) : Nat → List Nat := (List.range m).foldl (adjStep edges) fun _ => []

/-- One adjacent edge, lines 170-180, with `replace_and_write`, lines 107-119, and `update_edge_info`, lines 121-133. -/
def attachStep (row f t : Nat) (s : Fwd K) (a : Nat) : Fwd K :=
  let e := if (s.edges a).1 = t then (f, (s.edges a).2) else ((s.edges a).1, f)
  let adj1 := Function.update s.adj t ((s.adj t).erase a)
  { s with
    edges := Function.update s.edges a e
    mat := s.mat.set (if (s.edges a).1 = t then -1 else 1) row a
    adj := Function.update adj1 f (insertEdge a (adj1 f))
    hist := Function.update s.hist a (s.hist a ++ [row])
    contracted := Function.update s.contracted a (s.contracted a || decide (e.1 = e.2)) }

/-- The first part of the work on a pivot edge, lines 150-165. -/
def pivotInit (s : Fwd K) (i : Nat) : Fwd K :=
  let f := (s.edges i).1
  let t := (s.edges i).2
  let adj1 := Function.update s.adj f ((s.adj f).erase i)
  let loads := Function.update s.loads f (s.loads f + s.loads t)
  { s with
    hist := Function.update s.hist i (s.hist i ++ [s.piv.length])
    piv := s.piv ++ [i]
    mat := s.mat.set 1 s.piv.length i
    adj := Function.update adj1 t ((adj1 t).erase i)
    loads := loads
    rhs := Function.update s.rhs s.piv.length (loads t) }

/-- One edge of `forward_elimination`, lines 147-183. -/
def edgeStep (ord : List Nat → List Nat) (s : Fwd K) (i : Nat) : Fwd K :=
  if s.contracted i then { s with free := s.free ++ [i] }
  else
    let s1 := pivotInit s i
    (ord (s1.adj (s.edges i).2)).foldl (attachStep s.piv.length (s.edges i).1 (s.edges i).2) s1

/-- The start of the elimination, lines 137-146, 232-241: the loads are negated. -/
def fwdInit (edges : Nat → Nat × Nat) (m : Nat) (loads : Nat → K) : Fwd K :=
  ⟨edges, buildAdj edges m, fun v => -loads v, fun _ _ => none, fun _ => [], [], [], fun _ => 0, fun _ => false⟩

/-- `forward_elimination`, lines 137-184. -/
def forward (ord : List Nat → List Nat) (edges : Nat → Nat × Nat) (m : Nat) (loads : Nat → K) : Fwd K :=
  (List.range m).foldl (edgeStep ord) (fwdInit edges m loads)

/-- One free column, lines 213-222. -/
def freeStep (r pr : Nat) (mul : Int) (M : Coo) (c : Nat) : Coo :=
  match M pr c with
  | some p => M.addTo (-mul * p) r c
  | none => M

/-- One row, lines 207-226. A missing entry, on which `value()` would throw, is `none`. The free columns right of the pivot are found with
`upper_bound` in the increasing list of all free columns, lines 194-196. -/
def rowStep (free : List Nat) (j pr : Nat) (s : Coo × (Nat → K)) (r : Nat) : Option (Coo × (Nat → K)) :=
  match s.1 r j with
  | none => none
  | some mul => some ((free.filter fun c => decide (j < c)).foldl (freeStep r pr mul) (s.1.addTo (-mul) r j), Function.update s.2 r (s.2 r - (mul : K) * s.2 pr))

/-- One pivot column, lines 203-227, with `backward_substitution_rows`, lines 190-192. -/
def pivotStep (hist : Nat → List Nat) (free : List Nat) (s : Coo × (Nat → K)) (j : Nat) : Option (Coo × (Nat → K)) :=
  match (hist j).getLast? with
  | none => none
  | some pr => ((hist j).reverse.drop 1).foldlM (rowStep free j pr) s

/-- `backward_substitution`, lines 200-228, with `backward_substitution_pivots`, lines 186-188. -/
def backward (s : Fwd K) : Option (Coo × (Nat → K)) := (s.piv.drop 1).reverse.foldlM (pivotStep s.hist s.free) (s.mat, s.rhs)

/-- `dfs_matrix` of `set_solution_system`, lines 258-290. Every edge is either a pivot edge or free, so each entry is written at most once. -/
def dfs (piv free : List Nat) (M : Coo) (e k : Nat) : Option Int :=
  match free[k]? with
  | none => none
  | some c => if e = c then some (-1) else if e ∈ piv then M (piv.idxOf e) c else none

/-- `extended_rhs` of `set_solution_system`, lines 258-290. -/
def ext (piv : List Nat) (rhs : Nat → K) (e : Nat) : K := if e ∈ piv then rhs (piv.idxOf e) else 0

/-- `set_projection_system`, lines 292-325: the products of the columns, and as last column the products with the right-hand side. The loops add the
entries that are present; an absent entry adds zero. -/
def projection (m k : Nat) (D : Nat → Nat → Option Int) (x : Nat → K) (a b : Nat) : K :=
  if b < k then ((∑ e ∈ Finset.range m, (D e a).getD 0 * (D e b).getD 0 : Int) : K)
  else ∑ e ∈ Finset.range m, (((D e a).getD 0 : Int) : K) * x e

/-- One row below the pivot, lines 340-346. -/
def elimRow (k col : Nat) (S : Nat → Nat → K) (row : Nat) : Nat → Nat → K :=
  let q := S row col / -S col col
  fun r c => if r = row then (if c = col then q else if col < c ∧ c ≤ k then S row c + q * S col c else S row c) else S r c

/-- One column, lines 336-347. -/
def elimCol (k : Nat) (S : Nat → Nat → K) (col : Nat) : Nat → Nat → K := (List.range' (col + 1) (k - (col + 1))).foldl (elimRow k col) S

/-- One row of the backward substitution, lines 350-359; the sum is empty for the last row, which line 350 treats separately. -/
def substRow (k : Nat) (S : Nat → Nat → K) (row : Nat) : Nat → Nat → K :=
  Function.update S row (Function.update (S row) k ((S row k + ∑ c ∈ Finset.Ico (row + 1) k, -(S row c * S c k)) / S row row))

/-- `naive_gauss_elimination`, lines 327-360. -/
def gauss (k : Nat) (S : Nat → Nat → K) : Nat → Nat → K := (List.range k).reverse.foldl (substRow k) ((List.range k).foldl (elimCol k) S)

/-- `compute_loads_link_elements`, lines 385-405, with `compute_internal_loads`, lines 362-382. `none` means that an exception is thrown. -/
def linkLoads (ord : List Nat → List Nat) (edges : Nat → Nat × Nat) (m : Nat) (loads : Nat → K) : Option (Nat → K) :=
  let s := forward ord edges m loads
  match backward s with
  | none => none
  | some (M, rhs) =>
    if s.free = [] then some (ext s.piv rhs)
    else
      let k := s.free.length
      let S := gauss k (projection m k (dfs s.piv s.free M) (ext s.piv rhs))
      some fun e => ext s.piv rhs e - ∑ c ∈ Finset.range k, (((dfs s.piv s.free M e c).getD 0 : Int) : K) * S c k

end PGM.LinkSolver
