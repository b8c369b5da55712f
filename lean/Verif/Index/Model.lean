import Verif.Basic

/-!
# Model of the index mapping and grouped index vectors

`P/index_mapping.hpp` and `P/common/grouped_index_vector.hpp`.
`Idx` (a signed 64 bit integer) is modelled by `Nat`; all indices handled by these functions are
non-negative by construction. An out-of-range `std::vector` access is `none`.
-/

namespace PGM.Index

/-- `++counter[b]`. Models `P/index_mapping.hpp` line 76. -/
def countStep (counter : List Nat) (b : Nat) : Option (List Nat) := do
  let x ← counter[b]?
  setAt? counter b (x + 1)

/-- First loop of `build_sparse_mapping`: `++counter[entry.second]` for every entry, starting from zeros.
Models `P/index_mapping.hpp` lines 74-77. -/
def countPass (idxBinA : List Nat) (nB : Nat) : Option (List Nat) :=
  idxBinA.foldlM countStep (List.replicate nB 0)

/-- `std::inclusive_scan` with `+`. Models the call at `P/index_mapping.hpp` line 79. -/
def inclusiveScan (acc : Nat) : List Nat → List Nat
  | [] => []
  | x :: xs => (acc + x) :: inclusiveScan (acc + x) xs

/-- One iteration of the backward loop `reorder[--counter[b]] = i`.
Models `P/index_mapping.hpp` lines 83-85. `--counter` below zero followed by the store is an out-of-range
access, hence `none`. -/
def scatterStep (entry : Nat × Nat) (st : List Nat × List Nat) : Option (List Nat × List Nat) := do
  let c ← st.1[entry.2]?
  match c with
  | 0 => none
  | c + 1 =>
    let counter ← setAt? st.1 entry.2 c
    let reorder ← setAt? st.2 c entry.1
    pure (counter, reorder)

/-- Result of the sparse mapping, `struct SparseIndexMapping` in `P/index_mapping.hpp` lines 22-25. -/
structure SparseMapping where
  indptr : List Nat
  reorder : List Nat
deriving Repr, DecidableEq

/-- The list of `(i_A, idx_B_in_A[i_A])`. Models `P/index_mapping.hpp` lines 66-68. -/
def entries (idxBinA : List Nat) : List (Nat × Nat) :=
  (List.range idxBinA.length).zip idxBinA

/-- Models `build_sparse_mapping`, `P/index_mapping.hpp` lines 61-90. -/
def buildSparseMapping (idxBinA : List Nat) (nB : Nat) : Option SparseMapping := do
  let counter ← countPass idxBinA nB
  let scan := inclusiveScan 0 counter
  let st ← (entries idxBinA).foldrM scatterStep (scan, List.replicate idxBinA.length 0)
  pure ⟨0 :: scan, st.2⟩

/-- `std::upper_bound(next_group, end, group)` on the remaining range: number of leading elements that are
`≤ group`, on a sorted range. Modelled by its linear specification (first element greater than the value).
Used at `P/common/grouped_index_vector.hpp` line 45. -/
def upperBound (l : List Nat) (v : Nat) : Nat := (l.takeWhile (· ≤ v)).length

/-- `std::lower_bound`: number of leading elements that are `< v` (sorted range). -/
def lowerBound (l : List Nat) (v : Nat) : Nat := (l.takeWhile (· < v)).length

/-- The loop of `sparse_encode`, from group `g` on, with `pos` the iterator `next_group`.
Models `P/common/grouped_index_vector.hpp` lines 44-47. -/
def sparseEncodeLoop (l : List Nat) (g pos : Nat) : (fuel : Nat) → List Nat
  | 0 => []
  | k + 1 =>
    let pos' := pos + upperBound (l.drop pos) g
    pos' :: sparseEncodeLoop l (g + 1) pos' k

/-- Models `sparse_encode`, `P/common/grouped_index_vector.hpp` lines 39-49. -/
def sparseEncode (elementGroups : List Nat) (numGroups : Nat) : List Nat :=
  0 :: sparseEncodeLoop elementGroups 0 0 numGroups

/-- `std::fill(begin + a, begin + b, v)`; out of range (or `a > b`) is undefined behaviour. -/
def fillRange (l : List Nat) (a b v : Nat) : Option (List Nat) :=
  if a ≤ b ∧ b ≤ l.length then some (l.take a ++ List.replicate (b - a) v ++ l.drop b) else none

/-- Body of the loop of `sparse_decode`. Models `P/common/grouped_index_vector.hpp` line 57. -/
def sparseDecodeStep (indptr : List Nat) (res : List Nat) (g : Nat) : Option (List Nat) := do
  let a ← indptr[g]?
  let b ← indptr[g + 1]?
  fillRange res a b g

/-- The loop of `sparse_decode` over groups. Models `P/common/grouped_index_vector.hpp` lines 56-58. -/
def sparseDecodeLoop (indptr : List Nat) (n : Nat) (init : List Nat) : Option (List Nat) :=
  (List.range n).foldlM (sparseDecodeStep indptr) init

/-- Models `sparse_decode`, `P/common/grouped_index_vector.hpp` lines 54-60 (`indptr.back()` of an empty vector
is undefined behaviour). -/
def sparseDecode (indptr : List Nat) : Option (List Nat) := do
  let n ← indptr.getLast?
  sparseDecodeLoop indptr (indptr.length - 1) (List.replicate n 0)

/-- Result of the dense mapping, `struct DenseIndexMapping` in `P/index_mapping.hpp` lines 92-95. -/
structure DenseMapping where
  indvector : List Nat
  reorder : List Nat
deriving Repr, DecidableEq

/-- Lexicographic `≤` of `std::pair<Idx, Idx>`, the order used by `std::ranges::sort`. -/
def lexLe (a b : Nat × Nat) : Bool := a.1 < b.1 || (a.1 == b.1 && a.2 ≤ b.2)

/-- Models `build_dense_mapping_comparison_sort`, `P/index_mapping.hpp` lines 99-121. `std::ranges::sort` is
modelled by merge sort; the entries are pairwise different, so every correct sort gives the same list. -/
def denseComparison (idxBinA : List Nat) : DenseMapping :=
  let sorted := (idxBinA.zip (List.range idxBinA.length)).mergeSort lexLe
  ⟨sorted.map Prod.fst, sorted.map Prod.snd⟩

/-- Models `build_dense_mapping_counting_sort`, `P/index_mapping.hpp` lines 123-128. -/
def denseCounting (idxBinA : List Nat) (nB : Nat) : Option DenseMapping := do
  let s ← buildSparseMapping idxBinA nB
  let d ← sparseDecode s.indptr
  pure ⟨d, s.reorder⟩

/-- Models `build_dense_mapping`, `P/index_mapping.hpp` lines 149-154. The floating point size heuristic
`index_mapping_criterion_gcc` (lines 130-145) is a parameter: the theorems hold for any criterion. -/
def buildDenseMapping (criterion : Nat → Nat → Bool) (idxBinA : List Nat) (nB : Nat) : Option DenseMapping :=
  if criterion idxBinA.length nB then denseCounting idxBinA nB else some (denseComparison idxBinA)

/-- `SparseGroupedIdxVector`, `P/common/grouped_index_vector.hpp` lines 104-184: the field `indptr_`. -/
structure SparseVec where
  indptr : List Nat
deriving Repr

namespace SparseVec
/-- Constructor from `IdxVector`, lines 171-176 (an empty vector becomes `{0}`). -/
def fromSparse (indptr : List Nat) : SparseVec := ⟨if indptr.isEmpty then [0] else indptr⟩
/-- Constructor `from_dense`, lines 179-180. -/
def fromDense (dense : List Nat) (numGroups : Nat) : SparseVec := fromSparse (sparseEncode dense numGroups)
/-- `size()`, line 159. -/
def size (v : SparseVec) : Nat := v.indptr.length - 1
/-- `element_size()`, line 164. -/
def elementSize (v : SparseVec) : Option Nat := v.indptr.getLast?
/-- `get_element_range(group)`, lines 119-128 and 162: begin and end of the range. -/
def elementRange (v : SparseVec) (g : Nat) : Option (Nat × Nat) := do
  let a ← v.indptr[g]?
  let b ← v.indptr[g + 1]?
  pure (a, b)
/-- `get_group(element)`, lines 165-168; `Int` because of the final `- 1`. -/
def group (v : SparseVec) (e : Nat) : Int := (upperBound v.indptr e : Int) - 1
end SparseVec

/-- `DenseGroupedIdxVector`, `P/common/grouped_index_vector.hpp` lines 186-293. -/
structure DenseVec where
  numGroups : Nat
  dense : List Nat
deriving Repr

namespace DenseVec
/-- Constructor `from_sparse`, lines 284-286. -/
def fromSparse (indptr : List Nat) : Option DenseVec := do
  let d ← sparseDecode indptr
  pure ⟨indptr.length - 1, d⟩
/-- Constructor `from_dense`, lines 287-288. -/
def fromDense (dense : List Nat) (numGroups : Nat) : DenseVec := ⟨numGroups, dense⟩
/-- `size()`, line 268. -/
def size (v : DenseVec) : Nat := v.numGroups
/-- `element_size()`, line 272. -/
def elementSize (v : DenseVec) : Nat := v.dense.length
/-- `get_group(element)`, line 273. -/
def group (v : DenseVec) (e : Nat) : Option Nat := v.dense[e]?
/-- `std::ranges::equal_range(*dense_vector_, group)` as offsets; lines 204 and 211-213. -/
def elementRange (v : DenseVec) (g : Nat) : Nat × Nat := (lowerBound v.dense g, upperBound v.dense g)

/-- State of the group iterator: group and range offsets, lines 234-236. -/
structure Iter where
  group : Nat
  first : Nat
  last : Nat
deriving Repr, DecidableEq

/-- Iterator constructor, lines 200-204. -/
def iterAt (v : DenseVec) (g : Nat) : Iter := ⟨g, (v.elementRange g).1, (v.elementRange g).2⟩

/-- `increment()`, lines 242-246: the new range starts at the old end and ends at the first element greater
than the new group. -/
def Iter.increment (it : Iter) (v : DenseVec) : Iter :=
  ⟨it.group + 1, it.last, it.last + ((v.dense.drop it.last).takeWhile (fun x => !(x > it.group + 1))).length⟩

/-- `decrement()`, lines 247-253: search backwards from the old begin for an element smaller than the new
group. Going before group 0 is outside the modelled domain (`group - 1` on `Idx`; callers never do it). -/
def Iter.decrement (it : Iter) (v : DenseVec) : Iter :=
  let g := it.group - 1
  ⟨g, it.first - ((v.dense.take it.first).reverse.takeWhile (fun x => !(x < g))).length, it.first⟩

/-- `advance(n)` for a target group `g' = group + n`, lines 254-260: binary search in the part of the vector
after the current range (`n > 0`), before it (`n < 0`), or in all of it (`n = 0`). -/
def Iter.advanceTo (it : Iter) (v : DenseVec) (g' : Nat) : Iter :=
  let start := if g' > it.group then it.last else 0
  let stop := if g' < it.group then it.first else v.dense.length
  let sub := (v.dense.take stop).drop start
  ⟨g', start + lowerBound sub g', start + upperBound sub g'⟩
end DenseVec

end PGM.Index
