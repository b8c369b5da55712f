import Verif.YBus.Flow
import Mathlib.Algebra.Ring.Int.Defs
import Mathlib.Algebra.Ring.Hom.Defs

/-!
# The admittance matrix: cases that meet the hypotheses
-/

namespace PGM.YBus

/-- Three buses, two parallel branches, a branch that is open at one side, a loop, two shunts on one bus, and a fill-in. -/
def exTopo : Topo where
  nBus := 3
  branches := [(some 0, some 1), (some 1, some 0), (some 1, some 2), (some 2, none), (none, none), (some 2, some 2)]
  shuntBus := [1, 0, 1]
  fillIn := [(0, 2)]

example : exTopo.Valid where
  nonempty := by decide
  branchRange := by simp [exTopo]
  shuntRange := by simp [exTopo]
  fillRange := by simp [exTopo]
  fillOff := by simp [exTopo]
  fillNew := by simp [exTopo, Connects]
  fillOnce := by simp [exTopo]
  covered := by
    right
    intro r hr
    have : r = 0 ∨ r = 1 ∨ r = 2 := by simp [exTopo] at hr; omega
    rcases this with rfl | rfl | rfl <;> simp [exTopo]

/-- One bus with nothing on it. -/
example : (⟨1, [], [], []⟩ : Topo).Valid where
  nonempty := by decide
  branchRange := by simp
  shuntRange := by simp
  fillRange := by simp
  fillOff := by simp
  fillNew := by simp
  fillOnce := by simp
  covered := by simp

/-- Parameters that are all different powers of two, so that a sum shows which of them it has. -/
def exParam : Param Nat where
  ff k := 2 ^ (4 * k)
  ft k := 2 ^ (4 * k + 1)
  tf k := 2 ^ (4 * k + 2)
  tt k := 2 ^ (4 * k + 3)
  shunt k := 2 ^ (24 + k)

example : ((build exTopo).map fun S => (S.rowIndptr, S.colIndices, S.rowIndptrLu, S.colIndicesLu)) =
    some ([0, 2, 5, 7], [0, 1, 0, 1, 2, 1, 2], [0, 3, 6, 9], [0, 1, 2, 0, 1, 2, 0, 1, 2]) := by decide +kernel

example : ((build exTopo).map fun S => (S.mapLuYBus, S.transposeEntry, S.diagLu)) =
    some ([some 0, some 1, none, some 2, some 3, some 4, none, some 5, some 6], [0, 3, 6, 1, 4, 7, 2, 5, 8], [0, 4, 8]) := by
  decide +kernel

/-- The entry (1, 1): both parallel branches, the branch to bus 2 and both shunts. -/
example : (build exTopo).bind (fun S =>
    (updateAdmittance S ⟨[], ⟨fun _ => 0, fun _ => 0, fun _ => 0, fun _ => 0, fun _ => 0⟩, fun _ => [], fun _ => []⟩
      exParam).admittance[3]?) = some (2 ^ 3 + 2 ^ 4 + 2 ^ 8 + 2 ^ 24 + 2 ^ 26) := by decide +kernel

/-- An increment that gives a new value twice and touches a parallel branch. -/
def exInc : Increment Nat := ⟨[(1, ⟨5, 6, 7, 8⟩), (2, ⟨1, 1, 1, 1⟩), (1, ⟨50, 60, 70, 80⟩)], [(2, 1000)]⟩

/-- The full matrix with the parameters that result; by `increment_equals_rebuild` it is also the one after the increment. -/
example : (build exTopo).bind (fun S =>
    (updateAdmittance S ⟨[], ⟨fun _ => 0, fun _ => 0, fun _ => 0, fun _ => 0, fun _ => 0⟩, fun _ => [], fun _ => []⟩
      (exInc.shunt.foldl setShunt (exInc.branch.foldl setBranch exParam))).admittance[3]?) =
    some (2 ^ 3 + 50 + 1 + 2 ^ 24 + 1000) := by decide +kernel

/-- Currents in integers: the product is the multiplication. -/
example : busCurrent ⟨[0, 1], [0], [], [0, 0], [0], [0, 1], [0], [0], [some 0], [0]⟩
    (⟨[7], ⟨fun _ => 0, fun _ => 0, fun _ => 0, fun _ => 0, fun _ => 0⟩, fun _ => [], fun _ => []⟩ : YBus Int)
    (AddMonoidHom.mul : Int →+ Int →+ Int) (fun _ => 3) 0 = 21 := by decide

end PGM.YBus
