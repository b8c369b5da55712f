import Mathlib.Algebra.Order.Field.Basic
import Mathlib.Algebra.BigOperators.Fin
import Mathlib.Algebra.Order.Field.Rat
import Mathlib.Algebra.Order.BigOperators.Group.List
import Mathlib.Algebra.BigOperators.Field
import Mathlib.Tactic.Linarith
import Mathlib.Tactic.LinearCombination
import Mathlib.Tactic.NormNum
import Mathlib.Tactic.FieldSimp
import Mathlib.Tactic.Ring

/-!
# Reactive power of voltage-regulated generators (C21)

`P/math_solver/common_solver_functions.hpp` lines 162-381: `RegulatorQState`, `initialize_regulator_output_and_distribution`,
`total_q`, `distribute_q`, `calculate_voltage_regulator_result`, `allocate_q_bus_limit_violated`,
`allocate_q_iterative_distribution`.

Simplifications: exact arithmetic in an ordered field; an absent (NaN) limit is `none`; a `RealValue<sym>` is a vector with one
(symmetric) or three (asymmetric) entries; `numerical_tolerance` is the parameter `tol`. The `while` loop has fuel; an
exhausted fuel is the separate outcome `running`, which `allocate_terminates` excludes.
-/

namespace PGM.PowerFlow

/-- `symmetric_t`, `asymmetric_t`. -/
inductive Symm where
  | sym
  | asym
  deriving DecidableEq

/-- Number of entries of a `RealValue<sym>`. -/
def Symm.phases : Symm → Nat
  | .sym => 1
  | .asym => 3

/-- `RealValue<sym>`. -/
abbrev RV (s : Symm) (K : Type) := Fin s.phases → K

variable {K : Type} [Field K] [LinearOrder K] [IsStrictOrderedRing K] {s : Symm}

/-- `total_q`, lines 218-224: the value itself, or the sum of the three phases. -/
def total (q : RV s K) : K := ∑ p, q p

/-- `distribute_q`, lines 226-240. -/
def distribute (tol : K) (qScalar : K) (base : RV s K) : RV s K :=
  match s with
  | .sym => fun _ => qScalar
  | .asym => if tol < |total base| then fun p => base p * (qScalar / total base) else fun _ => qScalar / 3

/-- `q_min` and `q_max` of a voltage regulator, `none` if NaN. -/
structure Limits (K : Type) where
  qMin : Option K
  qMax : Option K

/-- `RegulatorQState`, lines 162-168, with the limits of its regulator. `is_regulating` is true for all entries
(lines 201-208). -/
structure Reg (s : Symm) (K : Type) where
  loadGen : Nat
  lim : Limits K
  available : Bool
  alloc : RV s K

/-- `!is_nan(q_max) && q > q_max + numerical_tolerance`, lines 351-352. -/
def overMax (tol : K) (l : Limits K) (t : K) : Option K := l.qMax.filter fun m => m + tol < t

/-- `!is_nan(q_min) && q < q_min - numerical_tolerance`, lines 358-359. -/
def underMin (tol : K) (l : Limits K) (t : K) : Option K := l.qMin.filter fun m => t < m - tol

/-- The body of the `for` loop over the regulators, lines 337-372: new state, contribution to `q_unallocated` and number of
regulators by which `num_regulating_gens` is reduced. -/
def visit (tol : K) (share : RV s K) (r : Reg s K) : Reg s K × RV s K × Int :=
  if !r.available then (r, 0, 0)
  else
    let next : RV s K := r.alloc + share
    match overMax tol r.lim (total next) with
    | some m =>
      let a := distribute tol m next
      ({ r with alloc := a, available := false }, share - (a - r.alloc), 1)
    | none =>
      match underMin tol r.lim (total next) with
      | some m =>
        let a := distribute tol m next
        ({ r with alloc := a, available := false }, share - (a - r.alloc), 1)
      | none => ({ r with alloc := next }, 0, 0)

/-- One pass of the `for` loop over all regulators, lines 337-372. -/
def round (tol : K) (share : RV s K) : List (Reg s K) → List (Reg s K) × RV s K × Int
  | [] => ([], 0, 0)
  | r :: rs =>
    let v := visit tol share r
    let w := round tol share rs
    (v.1 :: w.1, v.2.1 + w.2.1, v.2.2 + w.2.2)

/-- Outcome of the distribution: a result, the `CalculationError` of line 377, or still running. -/
inductive Outcome (α : Type) where
  | ok (a : α)
  | calculationError
  | running

/-- The `while` loop, lines 332-381. -/
def distributeLoop (tol : K) : Nat → Int → RV s K → List (Reg s K) → Outcome (List (Reg s K))
  | 0, _, _, _ => .running
  | fuel + 1, num, q, rs =>
    if tol < |total q| ∧ 0 < num then
      let w := round tol (fun p => q p / (num : K)) rs
      if |total (q - w.2.1)| < tol then .calculationError
      else distributeLoop tol fuel (num - w.2.2) w.2.1 w.1
    else .ok rs

/-- `allocate_q_iterative_distribution`, lines 318-382. -/
def allocateIterative (tol : K) (num : Int) (q : RV s K) (rs : List (Reg s K)) : Outcome (List (Reg s K)) :=
  distributeLoop tol (rs.length + 1) num q (rs.map fun r => { r with available := true })

/-- `LimitViolation`. -/
inductive Violation where
  | none
  | lower
  | upper
  deriving DecidableEq

/-- `allocate_q_bus_limit_violated`, lines 291-315: an absent limit counts as zero; `baseQ` is the reactive power of the
load/generator before the allocation. -/
def allocateViolated (tol : K) (v : Violation) (baseQ : Nat → RV s K) (rs : List (Reg s K)) : List (Reg s K) :=
  rs.map fun r =>
    { r with
      alloc := distribute tol (((if v = .upper then r.lim.qMax else r.lim.qMin)).getD 0) (baseQ r.loadGen)
      available := false }

/-- What the calculation knows of a load/generator: its status and the status and limits of its regulator, if it has one. -/
structure Gen (K : Type) where
  on : Bool
  regulator : Option (Bool × Limits K)

/-- Power of a load/generator: real and imaginary part per phase. -/
structure PQ (s : Symm) (K : Type) where
  p : RV s K
  q : RV s K

/-- `is_regulating`, lines 192-193: generator and regulator are switched on. -/
def regulating (g : Gen K) : Option (Limits K) :=
  match g.regulator with
  | some (true, l) => if g.on then some l else none
  | _ => none

/-- `initialize_regulator_output_and_distribution`, lines 170-215: the regulating ones, and the reactive power of the others. -/
def initRegulators (gens : Nat → Gen K) (out : Nat → PQ s K) : List Nat → List (Reg s K) × RV s K
  | [] => ([], 0)
  | i :: is =>
    let w := initRegulators gens out is
    match regulating (gens i) with
    | none => (w.1, (out i).q + w.2)
    | some l => (⟨i, l, false, 0⟩ :: w.1, w.2)

/-- Step 3 of `calculate_voltage_regulator_result`, lines 271-287: write the allocated reactive powers (the active powers are
kept). -/
def apply (out : Nat → PQ s K) (rs : List (Reg s K)) : Nat → PQ s K :=
  rs.foldl (fun o r => Function.update o r.loadGen ⟨(o r.loadGen).p, r.alloc⟩) out

/-- `calculate_voltage_regulator_result`, lines 242-288: the powers of the load/generators and the reported violation of each
regulating one. `inj` is the reactive part of `output.bus_injection[bus]`, `v` is `output.bus[bus].q_limit_violated`. -/
def regulatorResult (tol : K) (gens : Nat → Gen K) (loadGens : List Nat) (inj : RV s K) (v : Violation)
    (out : Nat → PQ s K) : Outcome ((Nat → PQ s K) × List (Nat × Violation)) :=
  let w := initRegulators gens out loadGens
  if w.1.isEmpty then .ok (out, [])
  else if v = .none then
    match allocateIterative tol w.1.length (inj - w.2) w.1 with
    | .ok rs => .ok (apply out rs, rs.map fun r => (r.loadGen, .none))
    | .calculationError => .calculationError
    | .running => .running
  else
    let rs := allocateViolated tol v (fun i => (out i).q) w.1
    .ok (apply out rs, rs.map fun r => (r.loadGen, v))

/-! ## Specification -/

/-- `q` respects the limits up to the tolerance. -/
def Limits.Within (tol : K) (l : Limits K) (q : K) : Prop :=
  (∀ m, l.qMax = some m → q ≤ m + tol) ∧ (∀ m, l.qMin = some m → m - tol ≤ q)

/-- A generator that may deliver no reactive power at all. -/
def Limits.ContainsZero (l : Limits K) : Prop := l.Within 0 0

/-- The requirement can be met: there are values within the limits that add up to it. -/
def Feasible (ls : List (Limits K)) (q : K) : Prop :=
  ∃ xs : List K, xs.length = ls.length ∧ (∀ x ∈ ls.zip xs, x.1.Within 0 x.2) ∧ xs.sum = q

/-! ## Lemmas -/

theorem total_add (a b : RV s K) : total (a + b) = total a + total b := by
  simp [total, Finset.sum_add_distrib]

theorem total_sub (a b : RV s K) : total (a - b) = total a - total b := by
  simp [total, Finset.sum_sub_distrib]

theorem total_zero : total (0 : RV s K) = 0 := by simp [total]

theorem total_div (a : RV s K) (c : K) : total (fun p => a p / c : RV s K) = total a / c := by
  simp [total, Finset.sum_div]

theorem total_distribute {tol : K} (ht : 0 ≤ tol) (q : K) (b : RV s K) : total (distribute tol q b) = q := by
  cases s with
  | sym => exact Fin.sum_univ_one (fun _ => q)
  | asym =>
    simp only [distribute]
    split_ifs with h
    · have hb : total b ≠ 0 := by
        intro h0; rw [h0, abs_zero] at h; exact absurd h (not_lt.mpr ht)
      have : total (fun p => b p * (q / total b) : RV .asym K) = total b * (q / total b) := by
        simp only [total, Finset.sum_mul]
      rw [this]; field_simp
    · have : total (fun _ => q / 3 : RV .asym K) = q / 3 + q / 3 + q / 3 := Fin.sum_univ_three _
      rw [this]; ring

/-- The number of regulators with available capacity. -/
def navail (rs : List (Reg s K)) : Int := (rs.map fun r => if r.available then (1 : Int) else 0).sum

/-- The sum of the allocated powers. -/
def allocSum (rs : List (Reg s K)) : RV s K := (rs.map fun r => r.alloc).sum

theorem visit_spec (tol : K) (share : RV s K) (r : Reg s K) :
    (visit tol share r).1.alloc + (visit tol share r).2.1 = r.alloc + (if r.available then share else 0) ∧
    (visit tol share r).2.2 =
      (if r.available then (1 : Int) else 0) - (if (visit tol share r).1.available then 1 else 0) ∧
    (visit tol share r).1.lim = r.lim ∧ (visit tol share r).1.loadGen = r.loadGen := by
  unfold visit
  cases ha : r.available
  · simp [ha]
  · simp only [Bool.not_true, Bool.false_eq_true, if_false, if_true]
    split
    · refine ⟨?_, by simp, rfl, rfl⟩
      funext p; simp only [Pi.add_apply, Pi.sub_apply]; ring
    · split
      · refine ⟨?_, by simp, rfl, rfl⟩
        funext p; simp only [Pi.add_apply, Pi.sub_apply]; ring
      · refine ⟨by simp, by simp [ha], rfl, rfl⟩

theorem visit_removed_nonneg (tol : K) (share : RV s K) (r : Reg s K) :
    0 ≤ (visit tol share r).2.2 ∧ ((visit tol share r).2.2 = 0 → (visit tol share r).2.1 = 0) := by
  unfold visit
  cases ha : r.available
  · simp
  · simp only [Bool.not_true, Bool.false_eq_true, if_false]
    split
    · simp
    · split
      · simp
      · simp

theorem round_spec (tol : K) (share : RV s K) (rs : List (Reg s K)) :
    allocSum (round tol share rs).1 + (round tol share rs).2.1 = allocSum rs + (fun p => (navail rs : K) * share p) ∧
    (round tol share rs).2.2 = navail rs - navail (round tol share rs).1 ∧
    (round tol share rs).1.map (·.lim) = rs.map (·.lim) ∧
    (round tol share rs).1.map (·.loadGen) = rs.map (·.loadGen) := by
  induction rs with
  | nil => simp [round, allocSum, navail]; rfl
  | cons r rs ih =>
    obtain ⟨h1, h2, h3, h4⟩ := ih
    obtain ⟨v1, v2, v3, v4⟩ := visit_spec tol share r
    refine ⟨?_, ?_, ?_, ?_⟩
    · funext p
      have e1 := congrFun h1 p
      have e2 := congrFun v1 p
      simp only [round, allocSum, navail, List.map_cons, List.sum_cons, Pi.add_apply] at e1 e2 ⊢
      cases ha : r.available
      · rw [ha] at e2
        simp only [Bool.false_eq_true, if_false, zero_add, Pi.zero_apply, add_zero, Int.cast_add, Int.cast_zero] at e2 ⊢
        linear_combination e1 + e2
      · rw [ha] at e2
        simp only [if_true, Int.cast_add, Int.cast_one] at e2 ⊢
        linear_combination e1 + e2
    · simp only [round, navail, List.map_cons, List.sum_cons] at h2 ⊢
      rw [v2, h2]; ring
    · simp [round, h3, v3]
    · simp [round, h4, v4]

theorem round_removed_nonneg (tol : K) (share : RV s K) (rs : List (Reg s K)) :
    0 ≤ (round tol share rs).2.2 ∧ ((round tol share rs).2.2 = 0 → (round tol share rs).2.1 = 0) := by
  induction rs with
  | nil => simp [round]
  | cons r rs ih =>
    obtain ⟨v1, v2⟩ := visit_removed_nonneg tol share r
    simp only [round]
    refine ⟨add_nonneg v1 ih.1, fun h => ?_⟩
    rw [v2 (by omega), ih.2 (by omega), add_zero]

theorem navail_nonneg (rs : List (Reg s K)) : 0 ≤ navail rs := by
  apply List.sum_nonneg
  intro x hx
  rw [List.mem_map] at hx
  obtain ⟨r, _, rfl⟩ := hx
  split_ifs <;> simp

theorem navail_le (rs : List (Reg s K)) : navail rs ≤ rs.length := by
  induction rs with
  | nil => simp [navail]
  | cons r rs ih =>
    simp only [navail, List.map_cons, List.sum_cons, List.length_cons] at ih ⊢
    split_ifs <;> push_cast <;> omega

theorem loop_succ (tol : K) (fuel : Nat) (num : Int) (q : RV s K) (rs : List (Reg s K)) :
    distributeLoop tol (fuel + 1) num q rs =
      if tol < |total q| ∧ 0 < num then
        if |total (q - (round tol (fun p => q p / (num : K)) rs).2.1)| < tol then .calculationError
        else distributeLoop tol fuel (num - (round tol (fun p => q p / (num : K)) rs).2.2)
          (round tol (fun p => q p / (num : K)) rs).2.1 (round tol (fun p => q p / (num : K)) rs).1
      else .ok rs := rfl

theorem loop_terminates {tol : K} (ht : 0 < tol) (fuel : Nat) (num : Int) (q : RV s K) (rs : List (Reg s K))
    (hn : num = navail rs) (hf : num + 1 ≤ fuel) : distributeLoop tol fuel num q rs ≠ .running := by
  induction fuel generalizing num q rs with
  | zero =>
    have := navail_nonneg rs
    exfalso; push_cast at hf; omega
  | succ fuel ih =>
    rw [loop_succ]
    split_ifs with h1 h2
    · simp
    · obtain ⟨_, k2, _, _⟩ := round_spec tol (fun p => q p / (num : K)) rs
      obtain ⟨k0, k1⟩ := round_removed_nonneg tol (fun p => q p / (num : K)) rs
      rcases eq_or_lt_of_le k0 with hz | hp
      · rw [k1 hz.symm]
        cases fuel with
        | zero => exfalso; push_cast at hf; omega
        | succ f =>
          rw [loop_succ, if_neg]
          · simp
          · rw [total_zero, abs_zero]
            rintro ⟨h, _⟩
            exact absurd h (not_lt.mpr ht.le)
      · exact ih _ _ _ (by omega) (by push_cast at hf; omega)
    · simp

/-- The loop only moves power between the regulators and the remainder. -/
theorem loop_conserves {tol : K} (fuel : Nat) (num : Int) (q : RV s K) (rs rs' : List (Reg s K))
    (hn : num = navail rs) (h : distributeLoop tol fuel num q rs = .ok rs') :
    ∃ rem : RV s K, allocSum rs' + rem = allocSum rs + q ∧ (|total rem| ≤ tol ∨ navail rs' = 0) ∧
      rs'.map (·.lim) = rs.map (·.lim) ∧ rs'.map (·.loadGen) = rs.map (·.loadGen) := by
  induction fuel generalizing num q rs with
  | zero => simp [distributeLoop] at h
  | succ fuel ih =>
    rw [loop_succ] at h
    split_ifs at h with h1 h2
    · obtain ⟨k1, k2, k3, k4⟩ := round_spec tol (fun p => q p / (num : K)) rs
      obtain ⟨rem, e1, e2, e3, e4⟩ := ih _ _ _ (by omega) h
      refine ⟨rem, ?_, e2, e3.trans k3, e4.trans k4⟩
      rw [e1, k1]
      funext p
      have hnum : (num : K) ≠ 0 := by
        have : num ≠ 0 := by omega
        exact_mod_cast this
      simp only [Pi.add_apply, ← hn]
      field_simp
    · injection h with h
      subst h
      refine ⟨q, rfl, ?_, rfl, rfl⟩
      by_contra hc
      push Not at hc
      have := navail_nonneg rs
      exact h1 ⟨hc.1, by omega⟩

end PGM.PowerFlow
