import Mathlib.Logic.Function.Basic
import Mathlib.Algebra.Group.Defs

/-!
# Nodal admittance matrix: structure and values

Model of `math_solver/y_bus.hpp` lines 44-294 (the structure) and 342-480 (the values), for one island.

Simplifications. A bus index of -1 (disconnected side of a branch) is `none`. Parameter vectors are functions from the index; that
only indices in range are used is `Props.elements_in_range`. `shunts_per_bus` is the dense grouped vector of C02: the shunts of a bus
are those whose bus it is, in order. Admittances are values of any additive commutative monoid (a complex number in symmetric, a
3×3 matrix in asymmetric calculations), so rounding is not modelled. Asserts are not modelled: they are not executed in a release
build; what they assert follows from `Props`. Undefined behaviour is `none`.
-/

namespace PGM.YBus

/-- The parts of `MathModelTopology` that the structure depends on, `calculation_parameters.hpp` lines 160-190. -/
structure Topo where
  nBus : Nat
  /-- `branch_bus_idx`. -/
  branches : List (Option Nat × Option Nat)
  /-- `shunts_per_bus`: the bus of every shunt. -/
  shuntBus : List Nat
  /-- `fill_in`. -/
  fillIn : List (Nat × Nat)

/-- `YBusElementType`, `common/enum.hpp` lines 79-87. -/
inductive ElType where
  | ff
  | ft
  | tf
  | tt
  | shunt
  | fillFt
  | fillTf
  deriving DecidableEq

/-- Is one of the two fill-in types. -/
def ElType.isFill : ElType → Bool
  | .fillFt => true
  | .fillTf => true
  | _ => false

/-- `YBusElement`, `calculation_parameters.hpp` lines 24-27. -/
structure Elem where
  type : ElType
  idx : Nat
  deriving DecidableEq

/-- `MatrixPos`: row and column. -/
abbrev Pos := Nat × Nat

/-- `YBusElementMap`, lines 38-41. -/
structure ElemMap where
  pos : Pos
  el : Elem
  deriving DecidableEq

/-! ## The list of elements -/

/-- `append_element_vector`, lines 44-52. -/
def appendElem (v : List ElemMap) (b1 b2 : Option Nat) (ty : ElType) (idx : Nat) : List ElemMap :=
  match b1, b2 with
  | some r, some c => v ++ [⟨(r, c), ⟨ty, idx⟩⟩]
  | _, _ => v

/-- The four elements of a branch, lines 133-139. -/
def addBranch (v : List ElemMap) (br : (Option Nat × Option Nat) × Nat) : List ElemMap :=
  let v := appendElem v br.1.1 br.1.1 .ff br.2
  let v := appendElem v br.1.1 br.1.2 .ft br.2
  let v := appendElem v br.1.2 br.1.1 .tf br.2
  appendElem v br.1.2 br.1.2 .tt br.2

/-- The shunts of a bus (`shunts_per_bus`, see C02). -/
def shuntsOf (T : Topo) (bus : Nat) : List Nat :=
  (List.range T.shuntBus.length).filter fun k => T.shuntBus[k]? == some bus

/-- The two elements of a fill-in, lines 148-154. -/
def addFillIn (v : List ElemMap) (f : (Nat × Nat) × Nat) : List ElemMap :=
  let v := appendElem v (some f.1.1) (some f.1.2) .fillFt f.2
  appendElem v (some f.1.2) (some f.1.1) .fillTf f.2

/-- `vec_map_element` before sorting, lines 130-154. -/
def collect (T : Topo) : List ElemMap :=
  let v := T.branches.zipIdx.foldl addBranch []
  let v := (List.range T.nBus).foldl
    (fun v bus => (shuntsOf T bus).foldl (fun v shunt => appendElem v (some bus) (some bus) .shunt shunt) v) v
  T.fillIn.zipIdx.foldl addFillIn v

/-! ## Counting sort -/

variable {α : Type}

/-- One element of the backward loop, lines 67-69 and 82-84. -/
def place (key : α → Nat) (s : (Nat → Nat) × List (Option α)) (x : α) : (Nat → Nat) × List (Option α) :=
  let p := s.1 (key x) - 1
  (Function.update s.1 (key x) p, s.2.set p (some x))

/-- One pass of `counting_sort_element`, lines 57-72 or 74-87: count, accumulate, place from the back. `none` if a key is out of
range, or if there is no bus (the loop of lines 64-66 then does not end). -/
def countingPass (key : α → Nat) (n : Nat) (xs : List α) : Option (List α) :=
  if n ≠ 0 ∧ (∀ x ∈ xs, key x < n) then
    let counter : Nat → Nat := xs.foldl (fun c x => Function.update c (key x) (c (key x) + 1)) (fun _ => 0)
    let counter := (List.range' 1 (n - 1)).foldl (fun c i => Function.update c i (c i + c (i - 1))) counter
    (xs.reverse.foldl (place key) (counter, List.replicate xs.length none)).2.mapM id
  else none

/-- `counting_sort_element`, lines 55-88: columns first, then rows. -/
def countingSort (n : Nat) (xs : List ElemMap) : Option (List ElemMap) :=
  (countingPass (fun e => e.pos.2) n xs).bind (countingPass (fun e => e.pos.1) n)

/-! ## The structure -/

/-- `YBusStructure`, lines 91-119, with the local variables of its constructor. -/
structure Build where
  rowIndptr : List Nat
  colIndices : List Nat
  entryIndptr : List Nat
  posInEntries : List Pos
  busEntry : List Nat
  rowIndptrLu : List Nat
  colIndicesLu : List Nat
  diagLu : List Nat
  mapLuYBus : List (Option Nat)
  /-- `off_diag_map`, one list for the first and one for the second column. -/
  offFt : List Nat
  offTf : List Nat
  rowStart : Nat
  rowStartLu : Nat
  fillCount : Nat
  /-- Number of elements already passed: `it_element - vec_map_element.cbegin()`. -/
  passed : Nat

/-- `nnz_counter` is the number of columns stored so far; they are incremented together, lines 190 and 235. -/
def Build.nnz (b : Build) : Nat := b.colIndices.length

/-- `nnz_counter_lu`: before the increment of lines 236 and 257 the column of the entry has already been stored (line 177). -/
def Build.nnzLu (b : Build) : Nat := b.mapLuYBus.length

/-- Lines 156-172. -/
def Build.start (T : Topo) : Build where
  rowIndptr := List.replicate (T.nBus + 1) 0
  colIndices := []
  entryIndptr := [0]
  posInEntries := []
  busEntry := List.replicate T.nBus 0
  rowIndptrLu := List.replicate (T.nBus + 1) 0
  colIndicesLu := []
  diagLu := List.replicate T.nBus 0
  mapLuYBus := []
  offFt := List.replicate (T.branches.length + T.fillIn.length) 0
  offTf := List.replicate (T.branches.length + T.fillIn.length) 0
  rowStart := 0
  rowStartLu := 0
  fillCount := 0
  passed := 0

/-- The column and the row of the LU structure, lines 176-181. -/
def Build.lu (b : Build) (p : Pos) : Build :=
  let b1 := { b with colIndicesLu := b.colIndicesLu ++ [p.2] }
  if b.rowStartLu < p.1 then
    { b1 with rowStartLu := b.rowStartLu + 1, rowIndptrLu := b.rowIndptrLu.set (b.rowStartLu + 1) b.nnzLu }
  else b1

/-- A position of the Y bus, lines 186-236: `count` is the number of elements in the same position, `el` is the first of
them. -/
def Build.entry (b : Build) (p : Pos) (el : Elem) (count : Nat) : Build :=
  let nnz := b.nnz
  let nnzLu := b.nnzLu
  let b := { b with colIndices := b.colIndices ++ [p.2] }
  let b := { b with mapLuYBus := b.mapLuYBus ++ [some nnz] }
  let b := if b.rowStart < p.1 then
      { b with rowStart := b.rowStart + 1, rowIndptr := b.rowIndptr.set (b.rowStart + 1) nnz }
    else b
  let b := if p.1 = p.2 then
      { b with busEntry := b.busEntry.set p.1 nnz, diagLu := b.diagLu.set p.1 nnzLu }
    else if el.type = .ft then { b with offFt := b.offFt.set el.idx nnzLu }
    else { b with offTf := b.offTf.set el.idx nnzLu }
  let b := { b with passed := b.passed + count }
  { b with
    entryIndptr := b.entryIndptr ++ [b.passed - b.fillCount]
    posInEntries := b.posInEntries ++ [p] }

/-- A fill-in, lines 239-260. -/
def Build.fill (nBranch : Nat) (b : Build) (el : Elem) : Build :=
  let nnzLu := b.nnzLu
  let b := if el.type = .fillFt then { b with offFt := b.offFt.set (el.idx + nBranch) nnzLu }
    else { b with offTf := b.offTf.set (el.idx + nBranch) nnzLu }
  { b with
    mapLuYBus := b.mapLuYBus ++ [none]
    fillCount := b.fillCount + 1
    passed := b.passed + 1 }

/-- The loop over the sorted elements, lines 170-261. -/
def buildLoop (nBranch : Nat) : List ElemMap → Build → Build
  | [], b => b
  | e :: es, b =>
    if e.el.type.isFill then buildLoop nBranch es ((b.lu e.pos).fill nBranch e.el)
    else
      buildLoop nBranch (es.dropWhile fun x => x.pos = e.pos)
        ((b.lu e.pos).entry e.pos e.el (1 + (es.takeWhile fun x => x.pos = e.pos).length))
  termination_by es => es.length
  decreasing_by
    all_goals simp_wf
    exact Nat.lt_succ_of_le (List.dropWhile_sublist _).length_le

/-- `YBusStructure`, lines 91-119. -/
structure Structure where
  rowIndptr : List Nat
  colIndices : List Nat
  element : List Elem
  entryIndptr : List Nat
  busEntry : List Nat
  rowIndptrLu : List Nat
  colIndicesLu : List Nat
  diagLu : List Nat
  /-- -1 is `none`. -/
  mapLuYBus : List (Option Nat)
  transposeEntry : List Nat

/-- The loop of lines 287-291 over `off_diag_map`. -/
def setTranspose (t : List Nat) (e : Nat × Nat) : List Nat := (t.set e.1 e.2).set e.2 e.1

/-- The constructor of `YBusStructure`, lines 122-293. -/
def build (T : Topo) : Option Structure :=
  (countingSort T.nBus (collect T)).map fun v =>
    let b := buildLoop T.branches.length v (Build.start T)
    let rowIndptr := b.rowIndptr.set (b.rowStart + 1) b.nnz
    let rowIndptrLu := b.rowIndptrLu.set (b.rowStartLu + 1) b.nnzLu
    let element := (v.filter fun e => !e.el.type.isFill).map (·.el)
    if T.branches.length = 0 ∧ T.shuntBus.length = 0 then
      { rowIndptr := [0, 1], colIndices := [0], element := element, entryIndptr := [0, 0], busEntry := [0]
        rowIndptrLu := [0, 1], colIndicesLu := [0], diagLu := [0], mapLuYBus := [some 0]
        transposeEntry := (b.offFt.zip b.offTf).foldl setTranspose (List.range 1) }
    else
      { rowIndptr := rowIndptr, colIndices := b.colIndices, element := element, entryIndptr := b.entryIndptr
        busEntry := b.busEntry, rowIndptrLu := rowIndptrLu, colIndicesLu := b.colIndicesLu, diagLu := b.diagLu
        mapLuYBus := b.mapLuYBus
        transposeEntry := (b.offFt.zip b.offTf).foldl setTranspose (List.range b.nnzLu) }

/-! ## The values -/

variable {Y : Type} [AddCommMonoid Y]

/-- The parts of `MathModelParam` that matter: `BranchCalcParam::value`, `shunt_param`; `calculation_parameters.hpp` lines 32-45. -/
structure Param (Y : Type) where
  ff : Nat → Y
  ft : Nat → Y
  tf : Nat → Y
  tt : Nat → Y
  shunt : Nat → Y

/-- The contribution of an element, lines 417-424. -/
def contribution (P : Param Y) (e : Elem) : Y :=
  match e.type with
  | .shunt => P.shunt e.idx
  | .ff => P.ff e.idx
  | .ft => P.ft e.idx
  | .tf => P.tf e.idx
  | .tt => P.tt e.idx
  -- not in `y_bus_element`; in the code an array is read out of bounds
  | .fillFt => 0
  | .fillTf => 0

/-- The elements of an entry: `IdxRange{y_bus_entry_indptr[entry], y_bus_entry_indptr[entry + 1]}`. -/
def elementsOf (S : Structure) (entry : Nat) : List Elem :=
  let a := S.entryIndptr[entry]?.getD 0
  let z := S.entryIndptr[entry + 1]?.getD 0
  (S.element.drop a).take (z - a)

/-- One entry of `update_admittance_entries`, lines 411-427. -/
def entryValue (S : Structure) (P : Param Y) (entry : Nat) : Y :=
  (elementsOf S entry).foldl (fun acc e => acc + contribution P e) 0

/-- The state of a `YBus` as far as values are concerned, lines 598-612. -/
structure YBus (Y : Type) where
  admittance : List Y
  param : Param Y
  perBranch : Nat → List Nat
  perShunt : Nat → List Nat

/-- `nnz`, line 320. -/
def Structure.nnz (S : Structure) : Nat := S.rowIndptr.getLast?.getD 0

/-- `update_admittance_entries`, lines 398-431. -/
def updateEntries (S : Structure) (y : YBus Y) (entries : List Nat) : YBus Y :=
  entries.foldl (fun y entry => { y with admittance := y.admittance.set entry (entryValue S y.param entry) }) y

/-- One element of `register_admittance_entries`, lines 442-451. -/
def registerElem (entry : Nat) (s : (Nat → List Nat) × (Nat → List Nat)) (e : Elem) : (Nat → List Nat) × (Nat → List Nat) :=
  if e.type = .shunt then (s.1, Function.update s.2 e.idx (s.2 e.idx ++ [entry]))
  else (Function.update s.1 e.idx (s.1 e.idx ++ [entry]), s.2)

/-- `register_admittance_entries`, lines 433-453. -/
def register (S : Structure) (y : YBus Y) : YBus Y :=
  let s := (List.range S.nnz).foldl (fun s entry => (elementsOf S entry).foldl (registerElem entry) s)
    ((fun _ => []), (fun _ => []))
  { y with perBranch := s.1, perShunt := s.2 }

/-- `update_admittance`, lines 342-353. -/
def updateAdmittance (S : Structure) (y : YBus Y) (P : Param Y) : YBus Y :=
  let y := { y with param := P }
  let y := if y.admittance.length ≠ S.nnz then { y with admittance := List.replicate S.nnz 0 } else y
  updateEntries S (register S y) (List.range S.nnz)

/-- `BranchCalcParam`. -/
structure BranchParam (Y : Type) where
  ff : Y
  ft : Y
  tf : Y
  tt : Y

/-- `MathModelParamIncrement`: the changed branches and shunts with their new parameters. -/
structure Increment (Y : Type) where
  branch : List (Nat × BranchParam Y)
  shunt : List (Nat × Y)

/-- `math_model_param_.branch_param[idx_to_change] = params`, line 382. -/
def setBranch (P : Param Y) (b : Nat × BranchParam Y) : Param Y :=
  { P with
    ff := Function.update P.ff b.1 b.2.ff
    ft := Function.update P.ft b.1 b.2.ft
    tf := Function.update P.tf b.1 b.2.tf
    tt := Function.update P.tt b.1 b.2.tt }

/-- `math_model_param_.shunt_param[idx_to_change] = params`, line 386. -/
def setShunt (P : Param Y) (s : Nat × Y) : Param Y := { P with shunt := Function.update P.shunt s.1 s.2 }

/-- `std::ranges::unique` on a sorted list: consecutive duplicates are dropped. -/
def unique : List Nat → List Nat
  | [] => []
  | a :: l => match unique l with
    | [] => [a]
    | b :: r => if a = b then b :: r else a :: b :: r

/-- `get_affected_admittance_entries`, lines 455-480. -/
def affected (y : YBus Y) (inc : Increment Y) : List Nat :=
  unique (((inc.branch.map (·.1)).flatMap y.perBranch ++ (inc.shunt.map (·.1)).flatMap y.perShunt).mergeSort (· ≤ ·))

/-- `update_admittance_increment`, lines 361-395. -/
def updateIncrement (S : Structure) (y : YBus Y) (inc : Increment Y) : YBus Y :=
  let P := inc.branch.foldl setBranch y.param
  let P := inc.shunt.foldl setShunt P
  let y := { y with param := P }
  updateEntries S y (affected y inc)

end PGM.YBus
