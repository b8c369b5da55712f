import Verif.Lu.Dense

/-!
# Sparse factorisation and substitution

Prefix of all paths: `P/` = `/repo/power_grid_model_c/power_grid_model/include/power_grid_model/`. Model of
`P/math_solver/sparse_lu_solver.hpp` lines 276-296, 346-495, 624-655, 734-748 and 769-827 (`SparseLUSolver`).

Simplifications: exact arithmetic over the real or complex numbers. A scalar entry is a block of size one: `factorizeBlock` of size one has
identity permutations, the lower solve is the identity and the upper solve a division, and it throws exactly if the pivot is zero, as
lines 378-387 do; the loop over permutations (lines 399-415) then has no effect on the data. Reads and writes outside of the data, and failing assertions, are the outcome `undefined`. The three
index vectors are constant; a read outside of them gives zero.
-/

namespace PGM.Lu

variable {K : Type} [RCLike K] {n : Nat}

/-- What may go wrong: `SparseMatrixError`, or undefined behaviour. -/
inductive Err | singular | undefined
  deriving DecidableEq

/-- Reading a vector. -/
def rd {α : Type} (l : List α) (i : Nat) : Except Err α :=
  match l[i]? with
  | some a => .ok a
  | none => .error .undefined

/-- Writing a vector. -/
def wr {α : Type} (l : List α) (i : Nat) (a : α) : Except Err (List α) :=
  if i < l.length then .ok (l.set i a) else .error .undefined

/-- The sparse structure, lines 288-296. -/
structure Pattern where
  rowIndptr : List Nat
  colIndices : List Nat
  diagLu : List Nat

/-- `row_indptr_[r]`. -/
def Pattern.start (p : Pattern) (r : Nat) : Nat := p.rowIndptr[r]?.getD 0

/-- `col_indices_[i]`. -/
def Pattern.col (p : Pattern) (i : Nat) : Nat := p.colIndices[i]?.getD 0

/-- `diag_lu_[r]`. -/
def Pattern.diag (p : Pattern) (r : Nat) : Nat := p.diagLu[r]?.getD 0

/-- `size_`, line 291. -/
def Pattern.size (p : Pattern) : Nat := p.rowIndptr.length - 1

/-- The indices of a range. -/
def idxRange (a z : Nat) : List Nat := List.range' a (z - a)

/-- `std::lower_bound` on the columns at positions `first ..< first + len`: halving. -/
def lowerBound (f : Nat → Nat) (v first len : Nat) : Nat :=
  if len = 0 then first
  else if f (first + len / 2) < v then lowerBound f v (first + len / 2 + 1) (len - len / 2 - 1)
  else lowerBound f v first (len / 2)
termination_by len
decreasing_by all_goals omega

/-- `find_entry`, lines 734-748. -/
def findEntry (p : Pattern) (row col first last : Nat) : Except Err Nat :=
  if ¬ (p.start row ≤ first ∧ first < last ∧ last ≤ p.start (row + 1)) then .error .undefined
  else if last - first < 16 then
    match (idxRange first last).find? fun i => p.col i == col with
    | some i => .ok i
    | none => .error .undefined
  else
    let i := lowerBound p.col col first (last - first)
    if i < last ∧ p.col i = col then .ok i else .error .undefined

/-- The state of the factorisation. -/
structure LuState (K : Type) (n : Nat) where
  data : List (Blk K n)
  colPos : List Nat
  perms : List (BlockPerm n)
  flag : Bool

/-- One entry left of the pivot and its counterpart above the pivot, lines 402-414. -/
def permStep (p : Pattern) (k : Nat) (bp : BlockPerm n) (st : LuState K n) (lIdx : Nat) : Except Err (LuState K n) := do
  let l ← rd st.data lIdx
  let data ← wr st.data lIdx (permRows bp.p l)
  let uRow := p.col lIdx
  let uIdx ← rd st.colPos uRow
  if p.col uIdx ≠ k then .error .undefined
  else
    let u ← rd data uIdx
    let data ← wr data uIdx (permCols u bp.q)
    let colPos ← wr st.colPos uRow (uIdx + 1)
    .ok { st with data := data, colPos := colPos }

/-- One entry right of the pivot, lines 421-428. -/
noncomputable def upperStep (lu : Blk K n) (bp : BlockPerm n) (data : List (Blk K n)) (uIdx : Nat) : Except Err (List (Blk K n)) := do
  let u ← rd data uIdx
  wr data uIdx (triSolve (V := Fin n → K) .left .lower lu (permRows bp.p u))

/-- The block below the pivot, lines 444-467: permutation of the columns and the solve from the right. -/
noncomputable def lowerBlock (lu : Blk K n) (bp : BlockPerm n) (l : Blk K n) : Blk K n :=
  Matrix.transpose (triSolve (V := Fin n → K) .right .upper lu (Matrix.transpose (permCols l bp.q)))

/-- One entry of the Schur complement, lines 477-484. -/
def schurStep (p : Pattern) (k row : Nat) (l : Blk K n) (st : Nat × List (Blk K n)) (uIdx : Nat) : Except Err (Nat × List (Blk K n)) := do
  let uCol := p.col uIdx
  if uCol ≤ k then .error .undefined
  else
    let aIdx ← findEntry p row uCol (st.1 + 1) (p.start (row + 1))
    let a ← rd st.2 aIdx
    let u ← rd st.2 uIdx
    let data ← wr st.2 aIdx (a - l * u)
    .ok (aIdx, data)

/-- One row below the pivot, lines 437-487. -/
noncomputable def lowerStep (p : Pattern) (k : Nat) (lu : Blk K n) (bp : BlockPerm n) (st : LuState K n) (lRef : Nat) :
    Except Err (LuState K n) := do
  let row := p.col lRef
  let lIdx ← rd st.colPos row
  if p.col lIdx ≠ k then .error .undefined
  else
    let a ← rd st.data lIdx
    let l := lowerBlock lu bp a
    let data ← wr st.data lIdx l
    let r ← (idxRange (p.diag k + 1) (p.start (k + 1))).foldlM (schurStep p k row l) (lIdx, data)
    let colPos ← wr st.colPos row (lIdx + 1)
    .ok { st with data := r.2, colPos := colPos }

/-- One pivot, lines 363-490. -/
noncomputable def pivotAt (p : Pattern) (thr : ℝ) (use : Bool) (st : LuState K n) (k : Nat) : Except Err (LuState K n) := do
  let a ← rd st.data (p.diag k)
  match factorizeBlock thr use a st.flag with
  | none => .error .singular
  | some f =>
    let data ← wr st.data (p.diag k) f.1
    let perms ← wr st.perms k f.2.1
    let st ← (idxRange (p.start k) (p.diag k)).foldlM (permStep p k f.2.1) ⟨data, st.colPos, perms, f.2.2⟩
    let data ← (idxRange (p.diag k + 1) (p.start (k + 1))).foldlM (upperStep f.1 f.2.1) st.data
    let st ← (idxRange (p.diag k + 1) (p.start (k + 1))).foldlM (lowerStep p k f.1 f.2.1) { st with data := data }
    let c ← rd st.colPos k
    let colPos ← wr st.colPos k (c + 1)
    .ok { st with colPos := colPos }

/-- The infinity norm of a block, line 642: the largest row sum. -/
noncomputable def blockNorm (a : Blk K n) : ℝ := (List.finRange n).foldl (fun m i => max m (∑ j, ‖a i j‖)) 0

/-- `initialize_pivot_perturbation`, lines 624-649: the norm. -/
noncomputable def matrixNorm (p : Pattern) (data : List (Blk K n)) : ℝ :=
  (List.range p.size).foldl (fun m r => max m
    ((idxRange (p.start r) (p.start (r + 1))).foldl (fun s i =>
      if p.col i = r then s else s + blockNorm (data[i]?.getD 0)) 0)) 0

/-- The perturbation threshold, lines 348-352. -/
noncomputable def threshold (p : Pattern) (use : Bool) (data : List (Blk K n)) : ℝ :=
  if use then (1 / 10) ^ 13 * matrixNorm p data else 0

/-- The factorised matrix with its permutations. -/
structure Factors (K : Type) (n : Nat) where
  data : List (Blk K n)
  perms : List (BlockPerm n)
  perturbed : Bool

/-- `prefactorize`, lines 346-495. -/
noncomputable def prefactorize (p : Pattern) (use : Bool) (data : List (Blk K n)) (perms : List (BlockPerm n)) : Except Err (Factors K n) := do
  let st ← (List.range p.size).foldlM (pivotAt p (threshold p use data) use) ⟨data, p.rowIndptr.dropLast, perms, false⟩
  .ok ⟨st.data, st.perms, st.flag⟩

/-! ## Substitution -/

/-- One entry of the forward substitution, lines 786-792. -/
def forwardEntry (p : Pattern) (data : List (Blk K n)) (row : Nat) (x : List (Fin n → K)) (acc : Fin n → K) (i : Nat) :
    Except Err (Fin n → K) := do
  if row ≤ p.col i then .error .undefined
  else
    let a ← rd data i
    let xc ← rd x (p.col i)
    .ok (acc - a.mulVec xc)

/-- One row of the forward substitution, lines 777-799. Without `rhs` the right-hand side is the vector `x` itself, as in all calls from the
solvers. -/
noncomputable def forwardRow (p : Pattern) (f : Factors K n) (rhs : Option (List (Fin n → K))) (x : List (Fin n → K)) (row : Nat) :
    Except Err (List (Fin n → K)) := do
  let bp ← rd f.perms row
  let b ← rd (rhs.getD x) row
  let acc ← (idxRange (p.start row) (p.diag row)).foldlM (forwardEntry p f.data row x) (permVec bp.p b)
  let pivot ← rd f.data (p.diag row)
  wr x row (triSolve .left .lower pivot acc)

/-- One entry of the backward substitution, lines 804-810. -/
def backwardEntry (p : Pattern) (data : List (Blk K n)) (row : Nat) (x : List (Fin n → K)) (acc : Fin n → K) (i : Nat) :
    Except Err (Fin n → K) := do
  if p.col i ≤ row then .error .undefined
  else
    let a ← rd data i
    let xc ← rd x (p.col i)
    .ok (acc - a.mulVec xc)

/-- One row of the backward substitution, lines 802-820. -/
noncomputable def backwardRow (p : Pattern) (f : Factors K n) (x : List (Fin n → K)) (row : Nat) : Except Err (List (Fin n → K)) := do
  let b ← rd x row
  let acc ← (idxRange (p.diag row + 1) (p.start (row + 1))).reverse.foldlM (backwardEntry p f.data row x) b
  let pivot ← rd f.data (p.diag row)
  wr x row (triSolve .left .upper pivot acc)

/-- One row of the final permutation, lines 822-826. -/
def restoreRow (f : Factors K n) (x : List (Fin n → K)) (row : Nat) : Except Err (List (Fin n → K)) := do
  let bp ← rd f.perms row
  let b ← rd x row
  wr x row (permVec bp.q b)

/-- `solve_once`, lines 769-827. `x` is what the output vector contained before. -/
noncomputable def solveOnce (p : Pattern) (f : Factors K n) (rhs : Option (List (Fin n → K))) (x : List (Fin n → K)) :
    Except Err (List (Fin n → K)) := do
  let x ← (List.range p.size).foldlM (forwardRow p f rhs) x
  let x ← (List.range p.size).reverse.foldlM (backwardRow p f) x
  (List.range p.size).foldlM (restoreRow f) x

/-! ## Iterative refinement -/

/-- One entry of `calculate_residual`, lines 572-575. -/
def residualEntry (p : Pattern) (orig : List (Blk K n)) (x : List (Fin n → K)) (acc : Fin n → K) (i : Nat) : Except Err (Fin n → K) := do
  let a ← rd orig i
  let xc ← rd x (p.col i)
  .ok (acc - a.mulVec xc)

/-- One row of `calculate_residual`, lines 570-577. -/
def residualRow (p : Pattern) (orig : List (Blk K n)) (rhs x : List (Fin n → K)) (row : Nat) : Except Err (Fin n → K) := do
  let b ← rd rhs row
  (idxRange (p.start row) (p.start (row + 1))).foldlM (residualEntry p orig x) b

/-- `calculate_residual`, lines 565-578. -/
def residual (p : Pattern) (orig : List (Blk K n)) (rhs x : List (Fin n → K)) : Except Err (List (Fin n → K)) :=
  (List.range p.size).mapM (residualRow p orig rhs x)

/-- One entry of a denominator, lines 593-595. -/
noncomputable def denominatorEntry (p : Pattern) (orig : List (Blk K n)) (x : List (Fin n → K)) (acc : Fin n → ℝ) (i : Nat) :
    Except Err (Fin n → ℝ) := do
  let a ← rd orig i
  let xc ← rd x (p.col i)
  .ok (fun t => acc t + ∑ s, ‖a t s‖ * ‖xc s‖)

/-- The denominators of one row, lines 591-598. -/
noncomputable def denominatorRow (p : Pattern) (orig : List (Blk K n)) (rhs x : List (Fin n → K)) (row : Nat) : Except Err (Fin n → ℝ) := do
  let b ← rd rhs row
  (idxRange (p.start row) (p.start (row + 1))).foldlM (denominatorEntry p orig x) (fun t => ‖b t‖)

/-- `max_val` of a vector: the largest of its entries, not less than `m`. -/
noncomputable def maxVal (m : ℝ) (v : Fin n → ℝ) : ℝ := (List.finRange n).foldl (fun m t => max m (v t)) m

/-- The backward error, lines 588-621: the absolute residual by the denominator, which is not less than a fraction of the largest one. -/
noncomputable def backwardError (p : Pattern) (orig : List (Blk K n)) (rhs res x : List (Fin n → K)) : Except Err ℝ := do
  let dens ← (List.range p.size).mapM (denominatorRow p orig rhs x)
  let cap := (1 / 10) ^ 4 * dens.foldl maxVal 0
  .ok ((res.zip dens).foldl (fun m rd => maxVal m fun t => ‖rd.1 t‖ / max (rd.2 t) cap) 0)

open Classical in
/-- The loop of `solve_with_refinement`, lines 523-535, with the number of solves that are still allowed. -/
noncomputable def refineLoop (p : Pattern) (f : Factors K n) (orig : List (Blk K n)) (rhs : List (Fin n → K)) :
    Nat → List (Fin n → K) → List (Fin n → K) → List (Fin n → K) → Except Err (List (Fin n → K))
  | 0, _, _, _ => .error .singular
  | left + 1, res, dx, x => do
    let dx ← solveOnce p f (some res) dx
    let berr ← backwardError p orig rhs res x
    let x := List.zipWith (· + ·) x dx
    let res ← residual p orig rhs x
    if berr > (1 / 10) ^ 13 then refineLoop p f orig rhs left res dx x else .ok x

/-- `solve_with_refinement`, lines 514-538. -/
noncomputable def solveRefined (p : Pattern) (f : Factors K n) (orig : List (Blk K n)) (rhs : List (Fin n → K)) : Except Err (List (Fin n → K)) :=
  let x := List.replicate p.size 0
  refineLoop p f orig rhs 6 rhs x x

/-- `prefactorize_and_solve`, lines 299-318, with the right-hand side in the vector of the unknowns. -/
noncomputable def factorizeAndSolve (p : Pattern) (use : Bool) (data : List (Blk K n)) (perms : List (BlockPerm n)) (x : List (Fin n → K)) :
    Except Err (List (Fin n → K)) := do
  let f ← prefactorize p use data perms
  if f.perturbed then solveRefined p f data x else solveOnce p f none x

end PGM.Lu
