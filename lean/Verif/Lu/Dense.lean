import Mathlib.Analysis.RCLike.Basic
import Mathlib.Data.Matrix.Mul
import Mathlib.Data.Matrix.Diagonal
import Mathlib.Data.List.FinRange
import Mathlib.GroupTheory.Perm.Basic
import Mathlib.Logic.Equiv.Basic
import Mathlib.Algebra.BigOperators.Fin

/-!
# Dense factorisation of a pivot block

Prefix of all paths: `P/` = `/repo/power_grid_model_c/power_grid_model/include/power_grid_model/`. Model of
`P/math_solver/sparse_lu_solver.hpp` lines 31-227 (`perturb_pivot_if_needed` and `DenseLUFactor`).

Simplifications: exact arithmetic over the real or complex numbers, so `is_normal` is `≠ 0`; a division by zero does not produce infinities,
but the zero pivot that causes it is found by the check at the end in the code and in the model. A
permutation is the map `indices()` of Eigen.
-/

namespace PGM.Lu

variable {K : Type} [RCLike K] {n : Nat}

/-- A square block. -/
abbrev Blk (K : Type) (n : Nat) := Matrix (Fin n) (Fin n) K

/-- `epsilon`, line 30. -/
noncomputable def machineEps : ℝ := 2⁻¹ ^ 52

/-- `perturb_pivot_if_needed`, lines 39-48. The result is the value, its absolute value and the flag. -/
noncomputable def perturb (thr : ℝ) (v : K) (flag : Bool) : K × ℝ × Bool :=
  if ‖v‖ < thr then ((if ‖v‖ = 0 then 1 else v / (‖v‖ : K)) * (thr : K), thr, true) else (v, ‖v‖, flag)

/-- The state of the main loop. -/
structure Fact (K : Type) (n : Nat) where
  mat : Blk K n
  rows : Fin n → Fin n
  cols : Fin n → Fin n
  maxPivot : ℝ
  flag : Bool
  stopped : Bool

/-- `maxCoeff` over the bottom right corner, lines 100-109: column by column, the first of the largest entries. -/
noncomputable def biggest (A : Blk K n) (k : Fin n) : Fin n × Fin n :=
  (((List.finRange n).filter (k ≤ ·)).flatMap fun c => ((List.finRange n).filter (k ≤ ·)).map fun r => (r, c)).foldl
    (fun best x => if ‖A best.1 best.2‖ ^ 2 < ‖A x.1 x.2‖ ^ 2 then x else best) (k, k)

/-- One entry replaced. -/
def setEntry (A : Blk K n) (r c : Fin n) (v : K) : Blk K n := fun i j => if i = r ∧ j = c then v else A i j

/-- The pivot column divided by the pivot and the corner updated, lines 137-144. -/
noncomputable def eliminate (A : Blk K n) (k : Fin n) : Blk K n :=
  let A : Blk K n := fun i j => if k < i ∧ j = k then A i k / A k k else A i j
  fun i j => if k < i ∧ k < j then A i j - A i k * A k j else A i j

/-- One pivot, lines 97-145. -/
noncomputable def pivotStep (thr : ℝ) (use : Bool) (st : Fact K n) (k : Fin n) : Fact K n :=
  let b := biggest st.mat k
  if st.stopped ∨ (‖st.mat b.1 b.2‖ ^ 2 = 0 ∧ use = false) then
    { st with rows := Function.update st.rows k k, cols := Function.update st.cols k k, stopped := true }
  else
    let v := perturb thr (st.mat b.1 b.2) st.flag
    let A := setEntry st.mat b.1 b.2 v.1
    let A : Blk K n := fun i j => A (Equiv.swap k b.1 i) (Equiv.swap k b.2 j)
    { mat := eliminate A k, rows := Function.update st.rows k b.1, cols := Function.update st.cols k b.2
      maxPivot := max st.maxPivot v.2.1, flag := v.2.2, stopped := false }

/-- The main loop. -/
noncomputable def pivotLoop (thr : ℝ) (use : Bool) (A : Blk K n) (flag : Bool) : Fact K n :=
  (List.finRange n).foldl (pivotStep thr use) ⟨A, id, id, 0, flag, false⟩

/-- The permutations of a pivot block and the flag. -/
structure BlockPerm (n : Nat) where
  p : Equiv.Perm (Fin n)
  q : Equiv.Perm (Fin n)

/-- `factorize_block_in_place`, lines 85-165. `none` is the exception. -/
noncomputable def factorizeBlock (thr : ℝ) (use : Bool) (A : Blk K n) (flag : Bool) : Option (Blk K n × BlockPerm n × Bool) :=
  let st := pivotLoop thr use A flag
  let p := (List.finRange n).reverse.foldl (fun p k => p * Equiv.swap k (st.rows k)) 1
  let q := (List.finRange n).foldl (fun q k => q * Equiv.swap k (st.cols k)) 1
  let threshold := if st.flag then 0 else machineEps * st.maxPivot
  open Classical in
  if ∃ k, ‖st.mat k k‖ < threshold ∨ st.mat k k = 0 then none else some (st.mat, ⟨p, q⟩, st.flag)

/-- The product of a permutation and a matrix in Eigen: row `i` goes to row `indices(i)`. -/
def permRows (p : Equiv.Perm (Fin n)) (A : Blk K n) : Blk K n := fun i j => A (p.symm i) j

/-- The product of a permutation and a vector. -/
def permVec (p : Equiv.Perm (Fin n)) (v : Fin n → K) : Fin n → K := fun i => v (p.symm i)

/-- The product of a matrix and a permutation: column `i` is the column `indices(i)`. -/
def permCols (A : Blk K n) (q : Equiv.Perm (Fin n)) : Blk K n := fun i j => A i (q j)

/-- `TriangularSolveSide`. -/
inductive Side | left | right
  deriving DecidableEq

/-- `TriangularFactor`. -/
inductive Factor | lower | upper
  deriving DecidableEq

/-- The index of a step, lines 182 and 184-185. -/
def triIndex (forward : Bool) (s : Fin n) : Fin n := if forward then s else s.rev

/-- `triangular_solve_inplace`, lines 170-200. The right-hand side is the family of its rows (left) or columns (right). -/
noncomputable def triSolve {V : Type} [AddCommGroup V] [Module K V] (side : Side) (factor : Factor) (lu : Blk K n) (rhs : Fin n → V) :
    Fin n → V :=
  let forward := decide (side = .left) == decide (factor = .lower)
  (List.finRange n).foldl (fun rhs s =>
    let i := triIndex forward s
    let rhs := ((List.finRange n).filter (· < s)).foldl (fun rhs t =>
      let j := triIndex forward t
      Function.update rhs i (rhs i - (if side = .left then lu i j else lu j i) • rhs j)) rhs
    if factor = .upper then Function.update rhs i ((lu i i)⁻¹ • rhs i) else rhs) rhs

/-- `inverse_factorized_block`, lines 205-214. -/
noncomputable def inverseFactorized (lu : Blk K n) : Blk K n :=
  triSolve (V := Fin n → K) .left .upper lu (triSolve (V := Fin n → K) .left .lower lu (1 : Blk K n))

end PGM.Lu
