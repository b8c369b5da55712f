import Mathlib.Tactic.Common

/-!
# Calculation options (C43)

`C/model.cpp` lines 78-183 and 336-344, `P/main_model_impl.hpp` lines 288-378 and 400-437, `P/calculation.hpp` lines 29-125,
`P/math_solver/math_solver.hpp` lines 36-99 and 124-180, `P/optimizer/optimizer.hpp` lines 22-45.

The model produces the sequence of observable steps of one calculation: the solver calls and the writing of the output.
Simplifications: the numerical work of a solver is an event with an outcome taken from the environment (`Subgrid.outcome`);
preparation before the solvers (C41) is an outcome of the environment as well. The tap optimizer is reduced to the
repetition of the calculation: its fallback to the linear method after a divergence is not modelled here.
-/

namespace PGM.Options

/-- `PGM_Options`, as given by the caller. The integers are 64-bit. -/
structure COptions (K : Type) where
  calculationType : Int
  calculationMethod : Int
  symmetric : Int
  errTol : K
  maxIter : Int
  tapChangingStrategy : Int
  scaling : Int
  experimental : Int

/-- Exceptions of the option handling, plus `environment` for any exception raised by the numerical work. -/
inductive Err where
  | illegalOperation
  | invalidArguments (strategy : Int)
  | missingCase (function : String) (value : Int)
  | experimentalFeature
  | invalidMeasuredTerminalType
  | invalidCalculationMethod
  | environment (code : Nat)
deriving DecidableEq, Repr

/-- `OptimizerStrategy`, `P/common/enum.hpp` (only the values that can be selected). -/
inductive Strategy where
  | any | globalMinimum | globalMaximum | fastAny
deriving DecidableEq, Repr

/-- `MainModelOptions`, `P/main_model_fwd.hpp` lines 21-35. The enumerations with an unchecked underlying `int8` stay integers. -/
structure MOptions (K : Type) where
  calculationType : Int
  symmetric : Bool
  method : Int
  optimize : Bool
  strategy : Strategy
  errTol : K
  maxIter : Int
  scaling : Int

/-- `safe_cast<IntS>` and `safe_enum`, `C/input_sanitization.hpp` lines 40-50 and 72-76. -/
def safeEnum (v : Int) : Except Err Int := if -128 ≤ v ∧ v ≤ 127 then .ok v else .error .illegalOperation

/-- `check_calculate_valid_options`, `C/model.cpp` lines 109-116. -/
def checkValidOptions {K : Type} (o : COptions K) : Except Err Unit :=
  if o.tapChangingStrategy ≠ 0 ∧ o.calculationType ≠ 0 then .error (.invalidArguments o.tapChangingStrategy) else .ok ()

/-- `get_calculation_symmetry`, `C/model.cpp` lines 120-129: the error reports the tap changing strategy. -/
def getSymmetry {K : Type} (o : COptions K) : Except Err Bool :=
  if o.symmetric = 0 then .ok false
  else if o.symmetric = 1 then .ok true
  else .error (.missingCase "get_calculation_symmetry" o.tapChangingStrategy)

/-- `get_optimizer_type`, `C/model.cpp` lines 135-150. -/
def getOptimizerType {K : Type} (o : COptions K) : Except Err Bool :=
  if o.tapChangingStrategy = 0 then .ok false
  else if o.tapChangingStrategy = 1 ∨ o.tapChangingStrategy = 2 ∨ o.tapChangingStrategy = 3 ∨ o.tapChangingStrategy = 4 then
    .ok true
  else .error (.missingCase "get_optimizer_type" o.tapChangingStrategy)

/-- `get_optimizer_strategy`, `C/model.cpp` lines 152-168. -/
def getStrategy {K : Type} (o : COptions K) : Except Err Strategy :=
  if o.tapChangingStrategy = 0 ∨ o.tapChangingStrategy = 1 then .ok .any
  else if o.tapChangingStrategy = 3 then .ok .globalMaximum
  else if o.tapChangingStrategy = 2 then .ok .globalMinimum
  else if o.tapChangingStrategy = 4 then .ok .fastAny
  else .error (.missingCase "get_optimizer_strategy" o.tapChangingStrategy)

/-- `extract_calculation_options`, `C/model.cpp` lines 174-183: members are initialised in this order. -/
def extract {K : Type} (o : COptions K) : Except Err (MOptions K) := do
  let t ← safeEnum o.calculationType
  let s ← getSymmetry o
  let m ← safeEnum o.calculationMethod
  let ot ← getOptimizerType o
  let st ← getStrategy o
  let sc ← safeEnum o.scaling
  .ok ⟨t, s, m, ot, st, o.errTol, o.maxIter, sc⟩

/-- A subgrid with its own solver: types of its load/generators (`true` for constant impedance) and the outcome of the
numerical work. -/
structure Subgrid where
  constY : List Bool
  outcome : Option Nat

/-- `all_const_y_`, `P/math_solver/math_solver.hpp` lines 36-37. -/
def Subgrid.allConstY (g : Subgrid) : Bool := g.constY.all id

/-- What the option handling reads of the model. A fault is (status, is three-phase). -/
structure Grid where
  subgrids : List Subgrid
  nVoltageRegulators : Nat
  /-- any voltage regulator in the model or in the update data has reactive power limits -/
  qLimits : Bool
  /-- any power sensor in the model measures at a node -/
  nodeSensors : Bool
  faults : List (Bool × Bool)
  /-- outcome of the preparation -/
  prepare : Option Nat
  /-- further calculations made by the tap optimizer after the first -/
  extraRuns : Nat

/-- `check_experimental_support`, `C/model.cpp` lines 95-107, and `P/main_model_impl.hpp` lines 400-437. -/
def checkExperimental {K : Type} (experimental : Int) (o : MOptions K) (g : Grid) : Except Err Unit :=
  if experimental = 0 then
    if (o.calculationType == 0 && !o.symmetric) && g.qLimits then .error .experimentalFeature else .ok ()
  else if experimental = 1 then
    if g.nodeSensors then .error .invalidMeasuredTerminalType else .ok ()
  else .error (.missingCase "calculate_impl" experimental)

/-- Tolerance handed to an iterative solver. -/
inductive Tol (K : Type) where
  | given (x : K)
  | infinite
deriving DecidableEq

/-- The algorithms that can be run in a subgrid. -/
inductive Algorithm (K : Type) where
  | newtonRaphsonPF (tol : K) (maxIter : Int)
  | linearPF
  | iterativeCurrentPF (tol : Tol K) (maxIter : Int)
  | iterativeLinearSE (tol : K) (maxIter : Int)
  | newtonRaphsonSE (tol : K) (maxIter : Int)
  | iec60909
deriving DecidableEq

/-- `run_power_flow`, `run_state_estimation` and `run_short_circuit`, `P/math_solver/math_solver.hpp` lines 43-99 and
124-180, selected by the type of calculation (`P/calculation.hpp` lines 79-125). -/
def dispatch {K : Type} (o : MOptions K) (g : Subgrid) : Except Err (Algorithm K) :=
  if o.calculationType = 0 then
    let m := if g.allConstY then 0 else o.method
    if m = -128 ∨ m = 1 then .ok (.newtonRaphsonPF o.errTol o.maxIter)
    else if m = 0 then .ok .linearPF
    else if m = 4 then .ok (.iterativeCurrentPF .infinite 1)
    else if m = 3 then .ok (.iterativeCurrentPF (.given o.errTol) o.maxIter)
    else .error .invalidCalculationMethod
  else if o.calculationType = 1 then
    if o.method = -128 ∨ o.method = 2 then .ok (.iterativeLinearSE o.errTol o.maxIter)
    else if o.method = 1 then .ok (.newtonRaphsonSE o.errTol o.maxIter)
    else .error .invalidCalculationMethod
  else
    if o.method ≠ -128 ∧ o.method ≠ 5 then .error .invalidCalculationMethod
    else .ok .iec60909

/-- Observable steps. -/
inductive Event (K : Type) where
  | solve (subgrid : Nat) (algorithm : Algorithm K) (symmetric : Bool)
  | output
deriving DecidableEq

abbrev Run (K : Type) := List (Event K) × Except Err Unit

/-- Sequencing: stop at the first exception. -/
def Run.andThen {K : Type} (a : Run K) (b : Run K) : Run K :=
  match a with
  | (t, .ok ()) => (t ++ b.1, b.2)
  | (t, .error e) => (t, .error e)

/-- The loop over the solvers in `calculate_`, `P/main_model_impl.hpp` lines 309-311. -/
def solveFrom {K : Type} (o : MOptions K) : Nat → List Subgrid → Run K
  | _, [] => ([], .ok ())
  | i, g :: gs =>
    match dispatch o g with
    | .error e => ([], .error e)
    | .ok a =>
      match g.outcome with
      | some code => ([.solve i a o.symmetric], .error (.environment code))
      | none => Run.andThen ([.solve i a o.symmetric], .ok ()) (solveFrom o (i + 1) gs)

/-- `calculate_`, `P/main_model_impl.hpp` lines 288-315. -/
def calculateOnce {K : Type} (o : MOptions K) (g : Grid) : Run K :=
  match g.prepare with
  | some code => ([], .error (.environment code))
  | none => solveFrom o 0 g.subgrids

/-- Repetition by the optimizer. -/
def repeatRun {K : Type} (r : Run K) : Nat → Run K
  | 0 => r
  | n + 1 => Run.andThen r (repeatRun r n)

/-- `calculate_with_optimizer`, `P/main_model_impl.hpp` lines 319-348, and `get_optimizer`, `P/optimizer/optimizer.hpp`
lines 22-45. Tap adjustment outside power flow is excluded by `checkValidOptions`. -/
def optimizeRun {K : Type} (o : MOptions K) (g : Grid) : Run K :=
  if o.optimize then repeatRun (calculateOnce o g) g.extraRuns else calculateOnce o g

/-- `MainModelImpl::calculate`, `P/main_model_impl.hpp` lines 351-378, with the selectors of `P/calculation.hpp` lines
29-77. -/
def calculate {K : Type} (o₀ : MOptions K) (g : Grid) : Run K :=
  let o := if o₀.calculationType = 2 then { o₀ with symmetric := g.faults.all (fun f => f.2) } else o₀
  if o.calculationType = 0 ∧ o.method ≠ 1 ∧ g.nVoltageRegulators > 0 then ([], .error .invalidCalculationMethod)
  else if o.calculationType = 0 ∨ o.calculationType = 1 ∨ o.calculationType = 2 then
    Run.andThen (optimizeRun o g) ([.output], .ok ())
  else ([], .error (.missingCase "CalculationType" o.calculationType))

/-- `calculate_impl`, `C/model.cpp` lines 336-344, for a single scenario. -/
def pgmCalculate {K : Type} (o : COptions K) (g : Grid) : Run K :=
  match checkValidOptions o with
  | .error e => ([], .error e)
  | .ok _ =>
    match extract o with
    | .error e => ([], .error e)
    | .ok m =>
      match checkExperimental o.experimental m g with
      | .error e => ([], .error e)
      | .ok _ => calculate m g

/-! ## Specification -/

/-- The documented algorithm for a type and a method of calculation (codes of `PGM_CalculationType`,
`PGM_CalculationMethod`). -/
inductive Documented {K : Type} (tol : K) (n : Int) : (type method : Int) → Algorithm K → Prop
  | pfDefault : Documented tol n 0 (-128) (.newtonRaphsonPF tol n)
  | pfLinear : Documented tol n 0 0 .linearPF
  | pfNewtonRaphson : Documented tol n 0 1 (.newtonRaphsonPF tol n)
  | pfIterativeCurrent : Documented tol n 0 3 (.iterativeCurrentPF (.given tol) n)
  | pfLinearCurrent : Documented tol n 0 4 (.iterativeCurrentPF .infinite 1)
  | seDefault : Documented tol n 1 (-128) (.iterativeLinearSE tol n)
  | seNewtonRaphson : Documented tol n 1 1 (.newtonRaphsonSE tol n)
  | seIterativeLinear : Documented tol n 1 2 (.iterativeLinearSE tol n)
  | scDefault : Documented tol n 2 (-128) .iec60909
  | scIec60909 : Documented tol n 2 5 .iec60909

/-- The options, the method apart, have documented values. -/
structure OptionsOk {K : Type} (o : COptions K) : Prop where
  type : o.calculationType ∈ ([0, 1, 2] : List Int)
  symmetry : o.symmetric ∈ ([0, 1] : List Int)
  strategy : o.tapChangingStrategy ∈ ([0, 1, 2, 3, 4] : List Int)
  tapOnlyInPowerFlow : o.tapChangingStrategy = 0 ∨ o.calculationType = 0
  experimental : o.experimental ∈ ([0, 1] : List Int)

/-- A subgrid with at least one load or generator that is not of constant-impedance type. -/
def NonLinear (g : Subgrid) : Prop := false ∈ g.constY

/-! ## Lemmas -/

theorem safeEnum_ok {v w : Int} (h : safeEnum v = .ok w) : w = v ∧ -128 ≤ v ∧ v ≤ 127 := by
  unfold safeEnum at h
  split at h
  · cases h; rename_i hh; exact ⟨rfl, hh⟩
  · cases h

theorem extract_ok {K : Type} {o : COptions K} {m : MOptions K} (h : extract o = .ok m) :
    m.calculationType = o.calculationType ∧ m.method = o.calculationMethod ∧ m.errTol = o.errTol ∧ m.maxIter = o.maxIter ∧
    (o.symmetric = 0 ∧ m.symmetric = false ∨ o.symmetric = 1 ∧ m.symmetric = true) ∧
    o.tapChangingStrategy ∈ ([0, 1, 2, 3, 4] : List Int) ∧ (m.optimize = true ↔ o.tapChangingStrategy ≠ 0) := by
  unfold extract at h
  cases h1 : safeEnum o.calculationType with
  | error e => simp [h1, bind, Except.bind] at h
  | ok t =>
    cases h2 : getSymmetry o with
    | error e => simp [h1, h2, bind, Except.bind] at h
    | ok s =>
      cases h3 : safeEnum o.calculationMethod with
      | error e => simp [h1, h2, h3, bind, Except.bind] at h
      | ok c =>
        cases h4 : getOptimizerType o with
        | error e => simp [h1, h2, h3, h4, bind, Except.bind] at h
        | ok ot =>
          cases h5 : getStrategy o with
          | error e => simp [h1, h2, h3, h4, h5, bind, Except.bind] at h
          | ok st =>
            cases h6 : safeEnum o.scaling with
            | error e => simp [h1, h2, h3, h4, h5, h6, bind, Except.bind] at h
            | ok sc =>
              simp only [h1, h2, h3, h4, h5, h6, bind, Except.bind, Except.ok.injEq] at h
              subst h
              have hs : o.symmetric = 0 ∧ s = false ∨ o.symmetric = 1 ∧ s = true := by
                unfold getSymmetry at h2
                split at h2
                · rename_i h0; exact .inl ⟨h0, (Except.ok.inj h2).symm⟩
                · split at h2
                  · rename_i h0; exact .inr ⟨h0, (Except.ok.inj h2).symm⟩
                  · cases h2
              have ho : o.tapChangingStrategy ∈ ([0, 1, 2, 3, 4] : List Int) ∧ (ot = true ↔ o.tapChangingStrategy ≠ 0) := by
                unfold getOptimizerType at h4
                split at h4
                · rename_i h0
                  have := Except.ok.inj h4
                  subst this
                  simp [h0]
                · rename_i h0
                  split at h4
                  · rename_i h7
                    have := Except.ok.inj h4
                    subst this
                    refine ⟨?_, by simp [h0]⟩
                    simp only [List.mem_cons, List.not_mem_nil, or_false]
                    tauto
                  · cases h4
              exact ⟨(safeEnum_ok h1).1, (safeEnum_ok h3).1, rfl, rfl, hs, ho.1, ho.2⟩

theorem andThen_ok {K : Type} {a b : Run K} : (a.andThen b).2 = .ok () ↔ a.2 = .ok () ∧ b.2 = .ok () := by
  obtain ⟨t, r⟩ := a
  cases r <;> simp [Run.andThen]

theorem andThen_trace {K : Type} {a b : Run K} (h : a.2 = .ok ()) : (a.andThen b).1 = a.1 ++ b.1 := by
  obtain ⟨t, r⟩ := a
  simp only at h
  subst h
  rfl

theorem andThen_err {K : Type} {a b : Run K} {e : Err} (h : a.2 = .error e) : a.andThen b = a := by
  obtain ⟨t, r⟩ := a
  simp only at h
  subst h
  rfl

/-- Every event of the solving phase is a solver call for a subgrid with the algorithm given by `dispatch`. -/
def GoodEvents {K : Type} (o : MOptions K) (gs : List Subgrid) (base : Nat) (t : List (Event K)) : Prop :=
  ∀ ev ∈ t, ∃ i g a, gs[i]? = some g ∧ dispatch o g = .ok a ∧ ev = .solve (base + i) a o.symmetric

theorem solveFrom_events {K : Type} (o : MOptions K) (gs : List Subgrid) (base : Nat) :
    GoodEvents o gs base (solveFrom o base gs).1 := by
  induction gs generalizing base with
  | nil => intro ev h; cases h
  | cons g gs ih =>
    intro ev h
    unfold solveFrom at h
    cases hd : dispatch o g with
    | error e => simp [hd] at h
    | ok a =>
      simp only [hd] at h
      cases ho : g.outcome with
      | some c =>
        simp only [ho, List.mem_singleton] at h
        exact ⟨0, g, a, rfl, hd, h⟩
      | none =>
        simp only [ho, Run.andThen, List.singleton_append, List.mem_cons] at h
        rcases h with rfl | h
        · exact ⟨0, g, a, rfl, hd, rfl⟩
        · obtain ⟨i, g', a', h1, h2, h3⟩ := ih (base + 1) ev h
          exact ⟨i + 1, g', a', h1, h2, by rw [h3]; congr 1; omega⟩

theorem solveFrom_ok {K : Type} (o : MOptions K) (gs : List Subgrid) (base : Nat) (h : (solveFrom o base gs).2 = .ok ()) :
    ∀ (i : Nat) g, gs[i]? = some g → ∃ a, dispatch o g = .ok a ∧ .solve (base + i) a o.symmetric ∈ (solveFrom o base gs).1 := by
  induction gs generalizing base with
  | nil => intro i g hg; simp at hg
  | cons g gs ih =>
    intro i g' hg
    unfold solveFrom at h ⊢
    cases hd : dispatch o g with
    | error e => simp [hd] at h
    | ok a =>
      simp only [hd] at h ⊢
      cases ho : g.outcome with
      | some c => simp [ho] at h
      | none =>
        simp only [ho] at h ⊢
        have h' := (andThen_ok.mp h).2
        cases i with
        | zero =>
          simp only [List.getElem?_cons_zero, Option.some.injEq] at hg
          subst hg
          exact ⟨a, hd, by simp [Run.andThen]⟩
        | succ i =>
          simp only [List.getElem?_cons_succ] at hg
          obtain ⟨a', h1, h2⟩ := ih (base + 1) h' i g' hg
          refine ⟨a', h1, ?_⟩
          simp only [Run.andThen, List.singleton_append, List.mem_cons]
          right
          rw [show base + (i + 1) = base + 1 + i by omega]
          exact h2

theorem once_events {K : Type} (o : MOptions K) (g : Grid) : GoodEvents o g.subgrids 0 (calculateOnce o g).1 := by
  unfold calculateOnce
  split
  · intro ev h; cases h
  · exact solveFrom_events o g.subgrids 0

theorem repeat_events {K : Type} (P : Event K → Prop) (r : Run K) (h : ∀ ev ∈ r.1, P ev) (n : Nat) :
    ∀ ev ∈ (repeatRun r n).1, P ev := by
  induction n with
  | zero => exact h
  | succ n ih =>
    intro ev hev
    unfold repeatRun at hev
    cases hr : r.2 with
    | error e => rw [andThen_err hr] at hev; exact h ev hev
    | ok u =>
      rw [andThen_trace hr] at hev
      rcases List.mem_append.mp hev with h' | h'
      · exact h ev h'
      · exact ih ev h'

theorem repeat_ok {K : Type} (r : Run K) (n : Nat) (h : (repeatRun r n).2 = .ok ()) : r.2 = .ok () := by
  cases n with
  | zero => exact h
  | succ n => exact (andThen_ok.mp h).1

theorem repeat_sub {K : Type} (r : Run K) (n : Nat) : ∀ ev ∈ r.1, ev ∈ (repeatRun r n).1 := by
  intro ev hev
  cases n with
  | zero => exact hev
  | succ n =>
    unfold repeatRun
    cases hr : r.2 with
    | error e => rw [andThen_err hr]; exact hev
    | ok u => rw [andThen_trace hr]; exact List.mem_append_left _ hev

theorem optimize_events {K : Type} (o : MOptions K) (g : Grid) : GoodEvents o g.subgrids 0 (optimizeRun o g).1 := by
  unfold optimizeRun
  split
  · exact repeat_events _ _ (once_events o g) _
  · exact once_events o g

theorem optimize_ok {K : Type} (o : MOptions K) (g : Grid) (h : (optimizeRun o g).2 = .ok ()) :
    ∀ (i : Nat) s, g.subgrids[i]? = some s → ∃ a, dispatch o s = .ok a ∧ .solve i a o.symmetric ∈ (optimizeRun o g).1 := by
  have h1 : (calculateOnce o g).2 = .ok () := by
    unfold optimizeRun at h
    split at h
    · exact repeat_ok _ _ h
    · exact h
  have h2 : ∀ ev ∈ (calculateOnce o g).1, ev ∈ (optimizeRun o g).1 := by
    unfold optimizeRun
    split
    · exact repeat_sub _ _
    · exact fun _ h => h
  intro i s hs
  unfold calculateOnce at h1 h2
  cases hp : g.prepare with
  | some c => simp [hp] at h1
  | none =>
    simp only [hp] at h1 h2
    obtain ⟨a, h3, h4⟩ := solveFrom_ok o g.subgrids 0 h1 i s hs
    rw [Nat.zero_add] at h4
    exact ⟨a, h3, h2 _ h4⟩

theorem events_no_output {K : Type} {o : MOptions K} {gs : List Subgrid} {b : Nat} {t : List (Event K)}
    (h : GoodEvents o gs b t) : Event.output ∉ t := by
  intro hin
  obtain ⟨i, g, a, _, _, h3⟩ := h _ hin
  cases h3

theorem allConstY_false {g : Subgrid} : g.allConstY = false ↔ NonLinear g := by
  unfold Subgrid.allConstY NonLinear
  rw [List.all_eq_false]
  constructor
  · rintro ⟨x, h1, h2⟩
    cases x
    · exact h1
    · simp at h2
  · intro h; exact ⟨false, h, by simp⟩

theorem dispatch_spec {K : Type} {o : MOptions K} {g : Subgrid} {a : Algorithm K}
    (ht : o.calculationType = 0 ∨ o.calculationType = 1 ∨ o.calculationType = 2) (h : dispatch o g = .ok a) :
    Documented o.errTol o.maxIter o.calculationType o.method a ∨
      (o.calculationType = 0 ∧ ¬ NonLinear g ∧ a = .linearPF) := by
  unfold dispatch at h
  rcases ht with ht | ht | ht
  · simp only [ht, if_true] at h
    cases hc : g.allConstY with
    | true =>
      right
      simp only [hc, if_true, Int.reduceNeg, Int.reduceEq, or_self, if_false] at h
      refine ⟨ht, ?_, (Except.ok.inj h).symm⟩
      rw [← allConstY_false, hc]
      simp
    | false =>
      left
      simp only [hc, Bool.false_eq_true, if_false] at h
      rw [ht]
      split at h
      · rename_i hm
        rw [← Except.ok.inj h]
        rcases hm with hm | hm <;> rw [hm]
        · exact .pfDefault
        · exact .pfNewtonRaphson
      · split at h
        · rename_i hm; rw [← Except.ok.inj h, hm]; exact .pfLinear
        · split at h
          · rename_i hm; rw [← Except.ok.inj h, hm]; exact .pfLinearCurrent
          · split at h
            · rename_i hm; rw [← Except.ok.inj h, hm]; exact .pfIterativeCurrent
            · cases h
  · left
    simp only [ht, Int.reduceEq, if_false, if_true] at h
    rw [ht]
    split at h
    · rename_i hm
      rw [← Except.ok.inj h]
      rcases hm with hm | hm <;> rw [hm]
      · exact .seDefault
      · exact .seIterativeLinear
    · split at h
      · rename_i hm; rw [← Except.ok.inj h, hm]; exact .seNewtonRaphson
      · cases h
  · left
    simp only [ht, Int.reduceEq, if_false] at h
    rw [ht]
    split at h
    · cases h
    · rename_i hm
      rw [← Except.ok.inj h]
      by_cases h1 : o.method = -128
      · rw [h1]; exact .scDefault
      · by_cases h2 : o.method = 5
        · rw [h2]; exact .scIec60909
        · exact absurd ⟨h1, h2⟩ hm

theorem dispatch_linear {K : Type} {o : MOptions K} {g : Subgrid} (ht : o.calculationType = 0) (hl : ¬ NonLinear g) :
    dispatch o g = .ok .linearPF := by
  have hc : g.allConstY = true := by
    cases hh : g.allConstY with
    | true => rfl
    | false => exact absurd (allConstY_false.mp hh) hl
  unfold dispatch
  simp [ht, hc]

/-- The symmetry that a calculation uses. -/
def UsedSymmetry {K : Type} (o : COptions K) (g : Grid) (sym : Bool) : Prop :=
  (o.calculationType ≠ 2 → (sym = true ↔ o.symmetric = 1)) ∧
  (o.calculationType = 2 → (sym = true ↔ ∀ f ∈ g.faults, f.2 = true))

/-- The options in force in `calculate`. -/
theorem calculate_cases {K : Type} (o : COptions K) (g : Grid) :
    (∃ e, pgmCalculate o g = ([], .error e)) ∨
    ∃ m : MOptions K, pgmCalculate o g = Run.andThen (optimizeRun m g) ([.output], .ok ()) ∧ OptionsOk o ∧
      m.calculationType = o.calculationType ∧ m.method = o.calculationMethod ∧ m.errTol = o.errTol ∧
      m.maxIter = o.maxIter ∧ UsedSymmetry o g m.symmetric ∧ (m.optimize = true ↔ o.tapChangingStrategy ≠ 0) ∧
      (o.calculationType = 0 → g.nVoltageRegulators > 0 → o.calculationMethod = 1) := by
  unfold pgmCalculate
  cases h1 : checkValidOptions o with
  | error e => exact .inl ⟨e, rfl⟩
  | ok u =>
    cases h2 : extract o with
    | error e => exact .inl ⟨e, rfl⟩
    | ok m =>
      obtain ⟨a1, a2, a3, a4, a5, a6, a7⟩ := extract_ok h2
      cases h3 : checkExperimental o.experimental m g with
      | error e => exact .inl ⟨e, by simp [h3]⟩
      | ok u' =>
        simp only [h3]
        have hx : o.experimental ∈ ([0, 1] : List Int) := by
          unfold checkExperimental at h3
          simp only [List.mem_cons, List.not_mem_nil, or_false]
          by_contra hcon
          push Not at hcon
          rw [if_neg hcon.1, if_neg hcon.2] at h3
          cases h3
        have ht : o.tapChangingStrategy = 0 ∨ o.calculationType = 0 := by
          unfold checkValidOptions at h1
          by_contra hcon
          push Not at hcon
          rw [if_pos hcon] at h1
          cases h1
        have hsym : o.symmetric ∈ ([0, 1] : List Int) := by
          simp only [List.mem_cons, List.not_mem_nil, or_false]
          rcases a5 with ⟨h, _⟩ | ⟨h, _⟩
          · exact .inl h
          · exact .inr h
        unfold calculate
        simp only
        by_cases hsc : m.calculationType = 2
        · simp only [hsc, if_true, Int.reduceEq, false_and, if_false, or_true]
          right
          refine ⟨{ m with symmetric := g.faults.all (fun f => f.2), calculationType := 2 }, ?_, ⟨?_, hsym, a6, ht, hx⟩, ?_, a2, a3, a4,
            ⟨?_, ?_⟩, a7, ?_⟩
          · congr 2
          · rw [← a1, hsc]; simp
          · rw [← a1, hsc]
          · intro h; exact absurd (a1.symm.trans hsc) h
          · intro _; simp only [List.all_eq_true]
          · intro h; rw [← a1, hsc] at h; cases h
        · simp only [hsc, if_false]
          by_cases hv : m.calculationType = 0 ∧ m.method ≠ 1 ∧ g.nVoltageRegulators > 0
          · rw [if_pos hv]; exact .inl ⟨_, rfl⟩
          · rw [if_neg hv]
            by_cases htt : m.calculationType = 0 ∨ m.calculationType = 1 ∨ False
            · rw [if_pos htt]
              right
              refine ⟨m, rfl, ⟨?_, hsym, a6, ht, hx⟩, a1, a2, a3, a4, ⟨?_, ?_⟩, a7, ?_⟩
              · rw [← a1]
                simp only [List.mem_cons, List.not_mem_nil, or_false]
                tauto
              · intro _
                rcases a5 with ⟨h, h'⟩ | ⟨h, h'⟩ <;> rw [h, h'] <;> simp
              · intro h; exact absurd (a1.trans h) hsc
              · intro h0 hn
                by_contra hcon
                exact hv ⟨a1.trans h0, by rw [a2]; exact hcon, hn⟩
            · rw [if_neg htt]; exact .inl ⟨_, rfl⟩

/-! ## C43 -/

/-- C43. Values of the type, symmetry, tap strategy and experimental options outside their enumerations, and tap
adjustment outside power flow, raise an error before any solver is called or output is written. -/
theorem invalid_options_rejected {K : Type} (o : COptions K) (g : Grid) (h : ¬ OptionsOk o) :
    ∃ e, pgmCalculate o g = ([], .error e) := by
  rcases calculate_cases o g with h' | ⟨m, _, hok, _⟩
  · exact h'
  · exact absurd hok h

/-- C43. Whenever an error is raised, no output has been written. -/
theorem error_no_output {K : Type} (o : COptions K) (g : Grid) (e : Err) (h : (pgmCalculate o g).2 = .error e) :
    Event.output ∉ (pgmCalculate o g).1 := by
  rcases calculate_cases o g with ⟨e', h'⟩ | ⟨m, h', _⟩
  · rw [h']; simp
  · rw [h'] at h ⊢
    cases hr : (optimizeRun m g).2 with
    | ok u =>
      have := andThen_ok (a := optimizeRun m g) (b := ([Event.output], .ok ())) |>.mpr ⟨hr, rfl⟩
      rw [this] at h
      cases h
    | error e' =>
      rw [andThen_err hr]
      exact events_no_output (optimize_events m g)

/-- C43, the part that holds. A calculation that succeeds has calculated every subgrid and then written the output once,
as its last step; in each subgrid the documented algorithm for the type and method of calculation was used, with the
tolerance and iteration limit of the caller, and the symmetry of the caller (of the faults, for short circuits). The
exception, which makes this partial, is that a power flow in a subgrid in which all load/generators have constant
impedance (or that has none) uses the linear method whatever the method option says: there the option is not
checked. -/
theorem success_runs_documented_partial {K : Type} (o : COptions K) (g : Grid) (h : (pgmCalculate o g).2 = .ok ()) :
    OptionsOk o ∧ ∃ solves, (pgmCalculate o g).1 = solves ++ [.output] ∧
      (∀ (i : Nat) s, g.subgrids[i]? = some s → ∃ a sym, .solve i a sym ∈ solves) ∧
      ∀ ev ∈ solves, ∃ i s a sym, ev = .solve i a sym ∧ g.subgrids[i]? = some s ∧ UsedSymmetry o g sym ∧
        (o.calculationType = 0 ∧ ¬ NonLinear s → a = .linearPF) ∧
        (¬ (o.calculationType = 0 ∧ ¬ NonLinear s) →
          Documented o.errTol o.maxIter o.calculationType o.calculationMethod a) := by
  rcases calculate_cases o g with ⟨e', h'⟩ | ⟨m, h', hok, a1, a2, a3, a4, a5, a6, a7⟩
  · rw [h'] at h; cases h
  · rw [h'] at h ⊢
    have hr := (andThen_ok.mp h).1
    refine ⟨hok, (optimizeRun m g).1, andThen_trace hr, ?_, ?_⟩
    · intro i s hs
      obtain ⟨a, _, h2⟩ := optimize_ok m g hr i s hs
      exact ⟨a, _, h2⟩
    · intro ev hev
      obtain ⟨i, s, a, h1, h2, h3⟩ := optimize_events m g ev hev
      rw [Nat.zero_add] at h3
      refine ⟨i, s, a, m.symmetric, h3, h1, a5, ?_, ?_⟩
      · rintro ⟨ht, hl⟩
        rw [dispatch_linear (a1.trans ht) hl] at h2
        exact (Except.ok.inj h2).symm
      · intro hn
        have ht : m.calculationType = 0 ∨ m.calculationType = 1 ∨ m.calculationType = 2 := by
          have := hok.type
          rw [a1]
          simpa using this
        rcases dispatch_spec ht h2 with hd | ⟨hd1, hd2, _⟩
        · rw [a1, a2, a3, a4] at hd; exact hd
        · rw [a1] at hd1; exact absurd ⟨hd1, hd2⟩ hn

/-- C43, the part that holds. A method that is not documented for the type of calculation raises an error, and no
output is written, as soon as there is a subgrid to calculate, for power flow one with a load or generator that is not of
constant-impedance type. The full property would have no such condition. -/
theorem undocumented_method_rejected_partial {K : Type} (o : COptions K) (g : Grid)
    (hm : ∀ a, ¬ Documented o.errTol o.maxIter o.calculationType o.calculationMethod a)
    (hs : ∃ s ∈ g.subgrids, o.calculationType = 0 → NonLinear s) :
    (∃ e, (pgmCalculate o g).2 = .error e) ∧ Event.output ∉ (pgmCalculate o g).1 := by
  cases hr : (pgmCalculate o g).2 with
  | error e => exact ⟨⟨e, rfl⟩, error_no_output o g e hr⟩
  | ok u =>
    exfalso
    obtain ⟨_, solves, _, h2, h3⟩ := success_runs_documented_partial o g hr
    obtain ⟨s, hs1, hs2⟩ := hs
    obtain ⟨i, hi⟩ := List.getElem?_of_mem hs1
    obtain ⟨a, sym, h4⟩ := h2 i s hi
    obtain ⟨i', s', a', sym', h5, h6, _, _, h7⟩ := h3 _ h4
    cases h5
    rw [hi] at h6
    cases h6
    exact hm _ (h7 (fun hh => hh.2 (hs2 hh.1)))

/-- The only errors left are those of the numerical work. -/
def Unobjected {K : Type} (r : Run K) : Prop := r.2 = .ok () ∨ ∃ code, r.2 = .error (.environment code)

theorem unobjected_andThen {K : Type} {a b : Run K} (ha : Unobjected a) (hb : Unobjected b) : Unobjected (a.andThen b) := by
  rcases ha with ha | ⟨c, ha⟩
  · rcases hb with hb | ⟨c, hb⟩
    · exact .inl (andThen_ok.mpr ⟨ha, hb⟩)
    · obtain ⟨t, r⟩ := a
      simp only at ha
      subst ha
      exact .inr ⟨c, hb⟩
  · rw [andThen_err ha]; exact .inr ⟨c, ha⟩

theorem unobjected_solve {K : Type} (o : MOptions K) (h : ∀ g, ∃ a, dispatch o g = .ok a) (gs : List Subgrid) (i : Nat) :
    Unobjected (solveFrom o i gs) := by
  induction gs generalizing i with
  | nil => exact .inl rfl
  | cons g gs ih =>
    unfold solveFrom
    obtain ⟨a, ha⟩ := h g
    simp only [ha]
    cases g.outcome with
    | some c => exact .inr ⟨c, rfl⟩
    | none => exact unobjected_andThen (.inl rfl) (ih (i + 1))

theorem unobjected_optimize {K : Type} (o : MOptions K) (g : Grid) (h : ∀ g, ∃ a, dispatch o g = .ok a) :
    Unobjected (optimizeRun o g) := by
  have h1 : Unobjected (calculateOnce o g) := by
    unfold calculateOnce
    split
    · exact .inr ⟨_, rfl⟩
    · exact unobjected_solve o h _ _
  unfold optimizeRun
  split
  · generalize g.extraRuns = n
    induction n with
    | zero => exact h1
    | succ n ih => exact unobjected_andThen h1 ih
  · exact h1

theorem dispatch_documented {K : Type} (o : MOptions K) (a : Algorithm K)
    (h : Documented o.errTol o.maxIter o.calculationType o.method a) (g : Subgrid) : ∃ a, dispatch o g = .ok a := by
  obtain ⟨t, s, m, op, st, tol, n, sc⟩ := o
  simp only at h
  unfold dispatch
  cases hc : g.allConstY <;> cases h <;> simp

theorem safeEnum_of {v : Int} (h : -128 ≤ v ∧ v ≤ 127) : safeEnum v = .ok v := by
  unfold safeEnum; rw [if_pos h]

/-- C43. Conversely, a documented combination of options is not rejected: only the numerical work, or the restrictions
on voltage regulators and experimental features, can then make the calculation fail. -/
theorem documented_accepted {K : Type} (o : COptions K) (g : Grid) (hok : OptionsOk o) (a : Algorithm K)
    (hm : Documented o.errTol o.maxIter o.calculationType o.calculationMethod a) (hsc : o.scaling ∈ ([0, 1] : List Int))
    (hv : o.calculationType = 0 → g.nVoltageRegulators > 0 → o.calculationMethod = 1) (hq : g.qLimits = false)
    (hn : g.nodeSensors = false) :
    (pgmCalculate o g).2 = .ok () ∨ ∃ code, (pgmCalculate o g).2 = .error (.environment code) := by
  have h1 : checkValidOptions o = .ok () := by
    unfold checkValidOptions
    rw [if_neg]
    rintro ⟨h, h'⟩
    rcases hok.tapOnlyInPowerFlow with h'' | h''
    · exact h h''
    · exact h' h''
  have ht : o.calculationType = 0 ∨ o.calculationType = 1 ∨ o.calculationType = 2 := by simpa using hok.type
  have hmm : -128 ≤ o.calculationMethod ∧ o.calculationMethod ≤ 127 := by
    generalize o.calculationMethod = mm at hm
    generalize o.calculationType = tt at hm
    cases hm <;> omega
  obtain ⟨s, hs⟩ : ∃ s, getSymmetry o = .ok s := by
    have : o.symmetric = 0 ∨ o.symmetric = 1 := by simpa using hok.symmetry
    unfold getSymmetry
    rcases this with h | h <;> simp [h]
  have hstr : o.tapChangingStrategy = 0 ∨ o.tapChangingStrategy = 1 ∨ o.tapChangingStrategy = 2 ∨
      o.tapChangingStrategy = 3 ∨ o.tapChangingStrategy = 4 := by simpa using hok.strategy
  obtain ⟨ot, hot⟩ : ∃ s, getOptimizerType o = .ok s := by
    unfold getOptimizerType
    rcases hstr with h | h | h | h | h <;> simp [h]
  obtain ⟨st, hst⟩ : ∃ s, getStrategy o = .ok s := by
    unfold getStrategy
    rcases hstr with h | h | h | h | h <;> simp [h]
  have hsc' : -128 ≤ o.scaling ∧ o.scaling ≤ 127 := by
    have : o.scaling = 0 ∨ o.scaling = 1 := by simpa using hsc
    omega
  have h2 : extract o = .ok ⟨o.calculationType, s, o.calculationMethod, ot, st, o.errTol, o.maxIter, o.scaling⟩ := by
    unfold extract
    rw [safeEnum_of (by omega : -128 ≤ o.calculationType ∧ o.calculationType ≤ 127), safeEnum_of hmm, hs, hot, hst,
      safeEnum_of hsc']
    rfl
  have h3 : ∀ m : MOptions K, checkExperimental o.experimental m g = .ok () := by
    intro m
    have : o.experimental = 0 ∨ o.experimental = 1 := by simpa using hok.experimental
    unfold checkExperimental
    rcases this with h | h <;> simp [h, hq, hn]
  unfold pgmCalculate
  simp only [h1, h2, h3]
  unfold calculate
  simp only
  by_cases h2' : o.calculationType = 2
  · simp only [h2', if_true, Int.reduceEq, false_and, if_false, or_true]
    refine unobjected_andThen (unobjected_optimize _ g ?_) (.inl rfl)
    rw [h2'] at hm
    exact dispatch_documented _ a hm
  · simp only [h2', if_false]
    rw [if_neg]
    · rw [if_pos (by tauto)]
      exact unobjected_andThen (unobjected_optimize _ g (dispatch_documented _ a hm)) (.inl rfl)
    · rintro ⟨h4, h5, h6⟩
      exact h5 (hv h4 h6)

/-- C43 does not hold in full: a power flow with the short-circuit method succeeds and writes output if all loads have
constant impedance, and every calculation accepts any method if no part of the grid is energised. -/
theorem undocumented_method_accepted :
    (∃ (o : COptions Nat) (g : Grid), (∀ a, ¬ Documented o.errTol o.maxIter o.calculationType o.calculationMethod a) ∧
      (∃ s ∈ g.subgrids, s.constY ≠ []) ∧ (pgmCalculate o g).2 = .ok () ∧ Event.output ∈ (pgmCalculate o g).1) ∧
    (∃ (o : COptions Nat) (g : Grid), (∀ a, ¬ Documented o.errTol o.maxIter o.calculationType o.calculationMethod a) ∧
      o.calculationType = 1 ∧ (pgmCalculate o g).2 = .ok () ∧ Event.output ∈ (pgmCalculate o g).1) := by
  refine ⟨⟨⟨0, 5, 1, 0, 20, 0, 0, 0⟩, ⟨[⟨[true], none⟩], 0, false, false, [], none, 0⟩, ?_, ⟨⟨[true], none⟩, by simp, by simp⟩, by decide,
    by decide⟩, ⟨⟨1, 5, 1, 0, 20, 0, 0, 0⟩, ⟨[], 0, false, false, [], none, 0⟩, ?_, rfl, by decide, by decide⟩⟩
  all_goals intro a h; cases h

/-- C43. With voltage regulators, a power flow succeeds only with the Newton-Raphson method chosen explicitly. -/
theorem regulators_need_newton_raphson {K : Type} (o : COptions K) (g : Grid) (h : (pgmCalculate o g).2 = .ok ())
    (ht : o.calculationType = 0) (hn : g.nVoltageRegulators > 0) : o.calculationMethod = 1 := by
  rcases calculate_cases o g with ⟨e', h'⟩ | ⟨m, _, _, _, _, _, _, _, _, a7⟩
  · rw [h'] at h; cases h
  · exact a7 ht hn

/-- C43. A short-circuit calculation is symmetric only if all active faults are three-phase. -/
theorem short_circuit_symmetric {K : Type} (o : COptions K) (g : Grid) (ht : o.calculationType = 2) (i : Nat)
    (a : Algorithm K) (hev : .solve i a true ∈ (pgmCalculate o g).1) : ∀ f ∈ g.faults, f.1 = true → f.2 = true := by
  rcases calculate_cases o g with ⟨e', h'⟩ | ⟨m, h', hok, a1, a2, a3, a4, a5, a6, a7⟩
  · rw [h'] at hev; cases hev
  · rw [h'] at hev
    have hin : Event.solve i a true ∈ (optimizeRun m g).1 := by
      cases hr : (optimizeRun m g).2 with
      | error e => rw [andThen_err hr] at hev; exact hev
      | ok u =>
        rw [andThen_trace hr] at hev
        rcases List.mem_append.mp hev with h | h
        · exact h
        · simp at h
    obtain ⟨i', s, a', _, _, h3⟩ := optimize_events m g _ hin
    have hsym : m.symmetric = true := by injection h3 with _ _ h4; exact h4.symm
    intro f hf _
    exact (a5.2 ht).mp hsym f hf

/-- Observation: an inactive fault of another type makes the calculation asymmetric. -/
theorem inactive_fault_counts : ∃ (o : COptions Nat) (g : Grid), o.calculationType = 2 ∧
    (∀ f ∈ g.faults, f.1 = true → f.2 = true) ∧ (∃ f ∈ g.faults, f.1 = true) ∧ (pgmCalculate o g).2 = .ok () ∧
    ∃ a, .solve 0 a false ∈ (pgmCalculate o g).1 :=
  ⟨⟨2, 5, 1, 0, 20, 0, 0, 0⟩, ⟨[⟨[], none⟩], 0, false, false, [(true, true), (false, false)], none, 0⟩, rfl, by decide, by decide,
    by decide, .iec60909, by decide⟩

/-! Non-vacuity: an asymmetric power flow with tap adjustment over two subgrids; state estimation with a wrong method;
options out of range. -/

private def g2 : Grid := ⟨[⟨[true, false], none⟩, ⟨[true], none⟩], 0, false, false, [], none, 1⟩

example : pgmCalculate (K := Nat) ⟨0, 3, 0, 7, 20, 1, 0, 0⟩ g2 =
    ([.solve 0 (.iterativeCurrentPF (.given 7) 20) false, .solve 1 .linearPF false,
      .solve 0 (.iterativeCurrentPF (.given 7) 20) false, .solve 1 .linearPF false, .output], .ok ()) := by decide
example : (pgmCalculate (K := Nat) ⟨1, 3, 0, 7, 20, 0, 0, 0⟩ g2).2 = .error .invalidCalculationMethod := by decide
example : ∀ a, ¬ Documented (7 : Nat) 20 1 3 a := by intro a h; cases h
example : ∃ s ∈ g2.subgrids, (0 : Int) = 0 → NonLinear s := ⟨_, by simp [g2]; exact .inl rfl, by simp [NonLinear]⟩
example : ¬ OptionsOk (K := Nat) ⟨0, 1, 2, 7, 20, 0, 0, 0⟩ := fun h => by simpa using h.symmetry
example : pgmCalculate (K := Nat) ⟨0, 1, 2, 7, 20, 3, 0, 0⟩ g2 = ([], .error (.missingCase "get_calculation_symmetry" 3)) := by
  decide

end PGM.Options
