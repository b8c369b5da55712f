import Mathlib.Order.Lattice
import Mathlib.Algebra.Order.Ring.Rat

/-!
# Iterative power flow: convergence contract (C22)

`P/math_solver/iterative_pf_solver.hpp` lines 33-90 (`IterativePFSolver::run_power_flow`), with the `iterate_unknown` of
`P/math_solver/iterative_current_pf_solver.hpp` lines 138-151 and of `P/math_solver/newton_raphson_pf_solver.hpp` lines 325-349.

Simplifications: `prepare_matrix_and_rhs` and `solve_matrix` of a derived solver are an arbitrary function on its state that may
raise an error; the deviations are doubles in the sense of their comparisons, `Dbl`: a finite value of an ordered type, infinity
or NaN. The `while` loop has fuel, exhausted fuel is the separate outcome `running`.
-/

namespace PGM.PowerFlow

/-- A non-negative double: finite, infinite or NaN. -/
inductive Dbl (K : Type) where
  | fin (x : K)
  | inf
  | nan
  deriving DecidableEq

namespace Dbl

variable {K : Type} [LinearOrder K]

/-- `a < b` of IEEE doubles: false as soon as one of them is NaN. -/
def lt : Dbl K → Dbl K → Bool
  | fin a, fin b => decide (a < b)
  | fin _, inf => true
  | _, _ => false

/-- `std::max(a, b)`: `(a < b) ? b : a`. -/
def stdMax (a b : Dbl K) : Dbl K := if lt a b then b else a

end Dbl

variable {K : Type} [LinearOrder K]

/-- The loop over the buses in `iterate_unknown` (`iterative_current_pf_solver.hpp` lines 139-150, `newton_raphson_pf_solver.hpp`
lines 326-341): `max_dev = std::max(dev, max_dev)`, starting from zero. -/
def maxDev (zero : K) (devs : List (Dbl K)) : Dbl K := devs.foldl (fun m d => Dbl.stdMax d m) (.fin zero)

/-- A derived solver: `initialize_derived_solver`, and one iteration consisting of `prepare_matrix_and_rhs`, `solve_matrix` and
`iterate_unknown`, which gives the new voltages and the deviation. -/
structure Derived (σ U ε K : Type) where
  init : σ → Except ε (σ × U)
  step : σ → U → Except ε (σ × U × Dbl K)

/-- Errors of a power flow: `IterationDiverge{max_iter, max_dev, err_tol}` or an error of the derived solver. -/
inductive PfError (ε K : Type) where
  | diverge (maxIter : Int) (dev tol : Dbl K)
  | solver (e : ε)

/-- Outcome of the loop. -/
inductive PfOutcome (σ U ε K : Type) where
  | ok (st : σ) (u : U) (numIter : Int)
  | error (e : PfError ε K)
  | running

variable {σ U ε : Type}

/-- The `while` loop, lines 53-71. -/
def pfLoop (D : Derived σ U ε K) (tol : Dbl K) (maxIter : Int) :
    Nat → Int → Dbl K → σ → U → PfOutcome σ U ε K
  | 0, _, _, _, _ => .running
  | fuel + 1, numIter, dev, st, u =>
    if Dbl.lt tol dev = true ∨ numIter = 0 then
      if numIter = maxIter then .error (.diverge maxIter dev tol)
      else
        match D.step st u with
        | .error e => .error (.solver e)
        | .ok (st', u', dev') => pfLoop D tol maxIter fuel (numIter + 1) dev' st' u'
    else .ok st u numIter

/-- `run_power_flow`, lines 33-84: the derived solver is copied (line 36) and the copy is discarded, so that the solver object
after the call is the one before it. -/
def runPowerFlow (D : Derived σ U ε K) (tol : Dbl K) (maxIter : Int) (fuel : Nat) (self : σ) : σ × PfOutcome σ U ε K :=
  let derived := self
  (self,
    match D.init derived with
    | .error e => .error (.solver e)
    | .ok (st, u) => pfLoop D tol maxIter fuel 0 .inf st u)

/-! ## Specification -/

/-- `n` iterations lead from one state to another; every one but the last exceeded the tolerance, and the last one had deviation
`dev` and started from the voltages `prev`. -/
inductive Iterations (D : Derived σ U ε K) (tol : Dbl K) : Nat → σ → U → σ → U → U → Dbl K → Prop where
  | one {st u st' u' dev} : D.step st u = .ok (st', u', dev) → Iterations D tol 1 st u st' u' u dev
  | more {n st u st' u' prev dev st'' u'' dev'} : Iterations D tol n st u st' u' prev dev → Dbl.lt tol dev = true →
      D.step st' u' = .ok (st'', u'', dev') → Iterations D tol (n + 1) st u st'' u'' u' dev'

/-! ## Lemmas -/

theorem iterations_pos {D : Derived σ U ε K} {tol : Dbl K} {n : Nat} {st : σ} {u : U} {st' : σ} {u' prev : U} {dev : Dbl K}
    (h : Iterations D tol n st u st' u' prev dev) : 1 ≤ n := by
  cases h <;> omega

/-- The loop continues a run of `n` iterations. -/
theorem loop_from (D : Derived σ U ε K) (tol : Dbl K) (maxIter : Int) (st0 : σ) (u0 : U) (fuel : Nat) (n : Nat) (st : σ)
    (u prev : U) (dev : Dbl K) (h : Iterations D tol n st0 u0 st u prev dev) (hn : 0 ≤ maxIter → (n : Int) ≤ maxIter) :
    match pfLoop D tol maxIter fuel n dev st u with
    | .ok st' u' k => ∃ (m : Nat) (prev' : U) (dev' : Dbl K), k = m ∧ 1 ≤ m ∧ (0 ≤ maxIter → (m : Int) ≤ maxIter) ∧
        Iterations D tol m st0 u0 st' u' prev' dev' ∧ Dbl.lt tol dev' = false
    | .error (.diverge a b c) => a = maxIter ∧ c = tol ∧ 1 ≤ maxIter ∧ ∃ (st' : σ) (u' prev' : U),
        Iterations D tol maxIter.toNat st0 u0 st' u' prev' b ∧ Dbl.lt tol b = true
    | .error (.solver e) => ∃ (m : Nat) (st' : σ) (u' prev' : U) (dev' : Dbl K), Iterations D tol m st0 u0 st' u' prev' dev' ∧
        Dbl.lt tol dev' = true ∧ D.step st' u' = .error e
    | .running => True := by
  induction fuel generalizing n st u prev dev with
  | zero => simp [pfLoop]
  | succ fuel ih =>
    have hpos := iterations_pos h
    unfold pfLoop
    by_cases h1 : Dbl.lt tol dev = true ∨ (n : Int) = 0
    · have h1' : Dbl.lt tol dev = true := by
        rcases h1 with h1 | h1
        · exact h1
        · omega
      rw [if_pos h1]
      by_cases h2 : (n : Int) = maxIter
      · rw [if_pos h2]
        refine ⟨rfl, rfl, by omega, st, u, prev, ?_, h1'⟩
        rw [← h2]
        exact h
      · rw [if_neg h2]
        cases hs : D.step st u with
        | error e => exact ⟨n, st, u, prev, dev, h, h1', hs⟩
        | ok x =>
          obtain ⟨st', u', dev'⟩ := x
          have := ih (n + 1) st' u' u dev' (.more h h1' hs) (fun hm => by have := hn hm; push_cast; omega)
          exact_mod_cast this
    · rw [if_neg h1]
      push Not at h1
      exact ⟨n, prev, dev, rfl, hpos, hn, h, by simpa using h1.1⟩

/-! ## Properties -/

/-- A power flow that returns a result made between one and `max_iter` iterations, the last of which did not exceed the
tolerance while all before it did. -/
theorem converged_contract (D : Derived σ U ε K) (tol : Dbl K) (maxIter : Int) (fuel : Nat) (self st : σ) (u : U) (n : Int)
    (h : (runPowerFlow D tol maxIter fuel self).2 = .ok st u n) :
    ∃ (st0 : σ) (u0 prev : U) (dev : Dbl K) (m : Nat), D.init self = .ok (st0, u0) ∧ n = m ∧ 1 ≤ m ∧
      (0 ≤ maxIter → (m : Int) ≤ maxIter) ∧ Iterations D tol m st0 u0 st u prev dev ∧ Dbl.lt tol dev = false := by
  unfold runPowerFlow at h
  cases hi : D.init self with
  | error e => simp [hi] at h
  | ok x =>
    obtain ⟨st0, u0⟩ := x
    simp only [hi] at h
    cases fuel with
    | zero => simp [pfLoop] at h
    | succ fuel =>
      unfold pfLoop at h
      rw [if_pos (Or.inr rfl)] at h
      split_ifs at h with h0
      cases hs : D.step st0 u0 with
      | error e => simp [hs] at h
      | ok y =>
        obtain ⟨st1, u1, dev1⟩ := y
        rw [hs] at h
        have key := loop_from D tol maxIter st0 u0 fuel 1 st1 u1 u0 dev1 (.one hs) (fun hm => by push_cast; omega)
        simp only [zero_add] at h
        simp only [Nat.cast_one] at key
        rw [h] at key
        obtain ⟨m, prev', dev', k1, k2, k3, k4, k5⟩ := key
        exact ⟨st0, u0, prev', dev', m, rfl, k1, k2, k3, k4, k5⟩

/-- An iteration-divergence error is raised after exactly `max_iter` iterations, all of which exceeded the tolerance, and reports
the last deviation. -/
theorem diverge_contract (D : Derived σ U ε K) (tol : Dbl K) (maxIter : Int) (fuel : Nat) (self : σ) (a : Int) (b c : Dbl K)
    (h : (runPowerFlow D tol maxIter fuel self).2 = .error (.diverge a b c)) :
    a = maxIter ∧ c = tol ∧ 0 ≤ maxIter ∧ ∃ (st0 : σ) (u0 : U), D.init self = .ok (st0, u0) ∧
      (maxIter = 0 ∨ ∃ (st' : σ) (u' prev : U), Iterations D tol maxIter.toNat st0 u0 st' u' prev b ∧ Dbl.lt tol b = true) := by
  unfold runPowerFlow at h
  cases hi : D.init self with
  | error e => simp [hi] at h
  | ok x =>
    obtain ⟨st0, u0⟩ := x
    simp only [hi] at h
    cases fuel with
    | zero => simp [pfLoop] at h
    | succ fuel =>
      unfold pfLoop at h
      rw [if_pos (Or.inr rfl)] at h
      split_ifs at h with h0
      · simp only [PfOutcome.error.injEq, PfError.diverge.injEq] at h
        exact ⟨h.1.symm, h.2.2.symm, by omega, st0, u0, rfl, Or.inl h0.symm⟩
      · cases hs : D.step st0 u0 with
        | error e => simp [hs] at h
        | ok y =>
          obtain ⟨st1, u1, dev1⟩ := y
          rw [hs] at h
          have key := loop_from D tol maxIter st0 u0 fuel 1 st1 u1 u0 dev1 (.one hs) (fun hm => by push_cast; omega)
          simp only [zero_add] at h
          simp only [Nat.cast_one] at key
          rw [h] at key
          obtain ⟨k1, k2, k3, st', u', prev', k4, k5⟩ := key
          exact ⟨k1, k2, by omega, st0, u0, rfl, Or.inr ⟨st', u', prev', k4, k5⟩⟩

/-- With an iteration limit that is not negative the power flow always ends: with a result, a divergence error or an error of the
linear solver in one of the iterations. -/
theorem run_terminates (D : Derived σ U ε K) (tol : Dbl K) (maxIter : Nat) (self : σ) (fuel : Nat) (hf : maxIter + 1 ≤ fuel) :
    (runPowerFlow D tol maxIter fuel self).2 ≠ .running := by
  have key : ∀ (fuel n : Nat) (dev : Dbl K) (st : σ) (u : U), n ≤ maxIter → maxIter - n + 1 ≤ fuel →
      pfLoop D tol maxIter fuel n dev st u ≠ .running := by
    intro fuel
    induction fuel with
    | zero => intro n dev st u _ hf; omega
    | succ fuel ih =>
      intro n dev st u hn hf
      unfold pfLoop
      split_ifs with h1 h2
      · simp
      · cases hs : D.step st u with
        | error e => simp
        | ok x =>
          obtain ⟨st', u', dev'⟩ := x
          have := ih (n + 1) dev' st' u' (by omega) (by omega)
          simpa using this
      · simp
  unfold runPowerFlow
  cases hi : D.init self with
  | error e => simp [hi]
  | ok x =>
    have := key fuel 0 .inf x.1 x.2 (by omega) (by omega)
    simpa [hi] using this

/-- The iterations and their outcome do not depend on anything the solver did before: the solver object is not modified, so a
second run from the resulting object gives the same result. -/
theorem run_leaves_solver (D : Derived σ U ε K) (tol : Dbl K) (maxIter : Int) (fuel : Nat) (self : σ) :
    (runPowerFlow D tol maxIter fuel self).1 = self ∧
    runPowerFlow D tol maxIter fuel (runPowerFlow D tol maxIter fuel self).1 = runPowerFlow D tol maxIter fuel self :=
  ⟨rfl, rfl⟩

/-- The maximum of deviations none of which is NaN bounds all of them. -/
theorem maxDev_bounds (zero t : K) (devs : List (Dbl K)) (hn : ∀ d ∈ devs, d ≠ .nan)
    (h : Dbl.lt (.fin t) (maxDev zero devs) = false) : ∀ d ∈ devs, ∃ x, d = .fin x ∧ x ≤ t := by
  have key : ∀ (devs : List (Dbl K)) (m : Dbl K), m ≠ .nan → (∀ d ∈ devs, d ≠ .nan) →
      Dbl.lt (.fin t) (devs.foldl (fun m d => Dbl.stdMax d m) m) = false →
      (∃ x, m = .fin x ∧ x ≤ t) ∧ ∀ d ∈ devs, ∃ x, d = .fin x ∧ x ≤ t := by
    intro devs
    induction devs with
    | nil =>
      intro m hm _ h
      refine ⟨?_, by simp⟩
      cases m with
      | fin x => exact ⟨x, rfl, by simpa [Dbl.lt] using h⟩
      | inf => simp [Dbl.lt] at h
      | nan => exact absurd rfl hm
    | cons d ds ih =>
      intro m hm hd h
      rw [List.foldl_cons] at h
      have hd0 := hd d (by simp)
      have hmax : Dbl.stdMax d m ≠ .nan := by
        unfold Dbl.stdMax; split_ifs <;> assumption
      obtain ⟨⟨x, hx, hxt⟩, i2⟩ := ih _ hmax (fun d' hd' => hd d' (by simp [hd'])) h
      have both : (∃ x, m = .fin x ∧ x ≤ t) ∧ ∃ x, d = .fin x ∧ x ≤ t := by
        unfold Dbl.stdMax at hx
        split_ifs at hx with hlt
        · subst hx
          cases d with
          | fin y =>
            have : y < x := by simpa [Dbl.lt] using hlt
            exact ⟨⟨x, rfl, hxt⟩, y, rfl, this.le.trans hxt⟩
          | inf => simp [Dbl.lt] at hlt
          | nan => exact absurd rfl hd0
        · subst hx
          cases m with
          | fin y =>
            have : y ≤ x := by simpa [Dbl.lt] using hlt
            exact ⟨⟨y, rfl, this.trans hxt⟩, x, rfl, hxt⟩
          | inf => simp [Dbl.lt] at hlt
          | nan => exact absurd rfl hm
      refine ⟨both.1, ?_⟩
      intro d' hd'
      rcases List.mem_cons.mp hd' with rfl | hd'
      · exact both.2
      · exact i2 d' hd'
  exact (key devs (.fin zero) (by simp) hn h).2

/-- Missing to the full property: deviations that are NaN (`nan_counts_as_converged`). If the derived solver reports the largest
change of a bus voltage (or infinity, to force another iteration) and no change is NaN, then in a returned result no bus voltage
was changed by more than the tolerance in the last iteration. `dist` is `max_val(cabs(u - u'))`. -/
theorem converged_changes_small_partial {V : Type} (nBus : Nat) (dist : V → V → Dbl K) (zero t : K)
    (D : Derived σ (Nat → V) ε K)
    (hstep : ∀ st u st' u' dev, D.step st u = .ok (st', u', dev) →
      dev = maxDev zero ((List.range nBus).map fun b => dist (u' b) (u b)) ∨ dev = .inf)
    (hnan : ∀ a b, dist a b ≠ .nan)
    (maxIter : Int) (fuel : Nat) (self st : σ) (u : Nat → V) (n : Int)
    (h : (runPowerFlow D (.fin t) maxIter fuel self).2 = .ok st u n) :
    ∃ (st0 : σ) (u0 prev : Nat → V) (dev : Dbl K) (m : Nat), D.init self = .ok (st0, u0) ∧ n = m ∧
      Iterations D (.fin t) m st0 u0 st u prev dev ∧
      ∀ b : Nat, b < nBus → ∃ x, dist (u b) (prev b) = .fin x ∧ x ≤ t := by
  obtain ⟨st0, u0, prev, dev, m, h1, h2, _, _, h5, h6⟩ := converged_contract D _ maxIter fuel self st u n h
  refine ⟨st0, u0, prev, dev, m, h1, h2, h5, ?_⟩
  have hd : dev = maxDev zero ((List.range nBus).map fun b => dist (u b) (prev b)) := by
    have : ∀ (m : Nat) (st : σ) (u prev : Nat → V) (dev : Dbl K), Iterations D (.fin t) m st0 u0 st u prev dev →
        dev = maxDev zero ((List.range nBus).map fun b => dist (u b) (prev b)) ∨ dev = .inf := by
      intro m st u prev dev hi
      cases hi with
      | one hs => exact hstep _ _ _ _ _ hs
      | more _ _ hs => exact hstep _ _ _ _ _ hs
    rcases this m st u prev dev h5 with hd | hd
    · exact hd
    · subst hd; simp [Dbl.lt] at h6
  subst hd
  intro b hb
  apply maxDev_bounds zero t _ _ h6 (dist (u b) (prev b))
  · exact List.mem_map.mpr ⟨b, List.mem_range.mpr hb, rfl⟩
  · intro d hd
    obtain ⟨c, _, rfl⟩ := List.mem_map.mp hd
    exact hnan _ _

/-! ## Witnesses -/

/-- A voltage of NaN at the last bus ends the iteration as converged, whatever the other buses do and whatever the tolerance. -/
theorem nan_counts_as_converged (zero : K) (tol : Dbl K) (devs : List (Dbl K)) :
    Dbl.lt tol (maxDev zero (devs ++ [.nan])) = false := by
  unfold maxDev
  rw [List.foldl_append]
  simp only [List.foldl_cons, List.foldl_nil]
  have : Dbl.stdMax (.nan : Dbl K) (devs.foldl (fun m d => Dbl.stdMax d m) (.fin zero)) = .nan := by
    unfold Dbl.stdMax
    rw [if_neg]
    simp [Dbl.lt]
  rw [this]
  cases tol <;> simp [Dbl.lt]

/-- A NaN forgets the deviations of all buses before it. -/
theorem nan_forgets (zero x : K) (devs : List (Dbl K)) : maxDev zero (devs ++ [.nan, .fin x]) = .fin x := by
  unfold maxDev
  rw [List.foldl_append]
  simp only [List.foldl_cons, List.foldl_nil]
  have : Dbl.stdMax (.nan : Dbl K) (devs.foldl (fun m d => Dbl.stdMax d m) (.fin zero)) = .nan := by
    unfold Dbl.stdMax
    rw [if_neg]
    simp [Dbl.lt]
  rw [this]
  simp [Dbl.stdMax, Dbl.lt]

/-- Consequence for the power flow: a solver whose first iteration gives NaN voltages returns these as a converged result. -/
theorem nan_result_returned : ∃ D : Derived Unit (Nat → Option Rat) Empty Rat,
    (∀ st u st' u' dev, D.step st u = .ok (st', u', dev) →
      dev = maxDev 0 ((List.range 2).map fun b => match u' b, u b with | some x, some y => .fin |x - y| | _, _ => .nan)) ∧
    (runPowerFlow D (.fin (1 / 100000000)) 20 21 ()).2 = .ok () (fun _ => none) 1 := by
  refine ⟨⟨fun _ => .ok ((), fun _ => some 1), fun _ _ => .ok ((), fun _ => none, .nan)⟩, ?_, rfl⟩
  intro st u st' u' dev h
  simp only [Except.ok.injEq, Prod.mk.injEq] at h
  obtain ⟨_, rfl, rfl⟩ := h
  rfl

/-- A negative iteration limit is no limit: a power flow that does not converge never ends. -/
theorem negative_limit_never_ends (maxIter : Int) (h : maxIter < 0) (fuel : Nat) :
    (runPowerFlow (⟨fun _ => .ok ((), ()), fun _ _ => .ok ((), (), .inf)⟩ : Derived Unit Unit Empty Rat)
      (.fin 0) maxIter fuel ()).2 = .running := by
  have key : ∀ (fuel n : Nat), pfLoop (⟨fun _ => .ok ((), ()), fun _ _ => .ok ((), (), .inf)⟩ : Derived Unit Unit Empty Rat)
      (.fin 0) maxIter fuel n .inf () () = .running := by
    intro fuel
    induction fuel with
    | zero => intro n; rfl
    | succ fuel ih =>
      intro n
      unfold pfLoop
      rw [if_pos (Or.inl (by simp [Dbl.lt])), if_neg (by omega)]
      have := ih (n + 1)
      simpa using this
  exact key fuel 0

/-- The hypotheses can be met: halving the distance to the solution converges to a tolerance of 1/10 in four iterations, and
diverges if only three are allowed. -/
def halving : Derived Unit (Nat → Rat) Empty Rat where
  init _ := .ok ((), fun _ => 1)
  step _ u := .ok ((), fun b => u b / 2, maxDev 0 ((List.range 1).map fun b => .fin |u b / 2 - u b|))

example : (match (runPowerFlow halving (.fin (1 / 10)) 20 21 ()).2 with
    | .ok _ u n => decide (u 0 = 1 / 16 ∧ n = 4) | _ => false) = true ∧
  (match (runPowerFlow halving (.fin (1 / 10)) 3 21 ()).2 with
    | .error (.diverge a b _) => decide (a = 3 ∧ b = .fin (1 / 8)) | _ => false) = true := by
  decide +kernel

end PGM.PowerFlow
