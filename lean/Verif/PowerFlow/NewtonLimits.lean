import Verif.PowerFlow.RegulatorProps
import Verif.PowerFlow.Iterate

/-!
# Newton-Raphson power flow: voltage-controlled buses and reactive limits (C23)

`P/math_solver/newton_raphson_pf_solver.hpp` lines 171-173 (constants), 305-320 (`prepare_matrix_and_rhs`), 325-349
(`iterate_unknown`), 377-397 (`QLimitState`, `BusControlState`), 400-445 (`set_bus_types_and_q_limits`), 589-604
(`violated_limit`), 606-709 (`enforce_q_limits`).

Simplifications: exact arithmetic; NaN is `none`. The Jacobian, the right-hand side and the linear solve are not modelled here:
the mismatch `del_x_pq_[bus].q()` before `enforce_q_limits` and the largest voltage change of an iteration are arbitrary inputs
of every iteration (`Iter`), so that the theorems hold for every sequence of iterations.
-/

namespace PGM.PowerFlow.Newton

open PGM.PowerFlow

/-- A voltage regulator in `PowerFlowInput`. -/
structure RegIn (K : Type) where
  on : Bool
  lim : Limits K
  uRef : K

/-- A load/generator: status, whether it is of constant-power type, the specified reactive power and the regulators. -/
structure LoadGen (s : Symm) (K : Type) where
  on : Bool
  constPq : Bool
  q : RV s K
  regs : List (RegIn K)

/-- A bus: whether it has a source, and the indices of its load/generators. -/
structure BusIn where
  hasSource : Bool
  loadGens : List Nat

/-- The parts of the topology and of the input that matter. -/
structure Input (s : Symm) (K : Type) where
  buses : List BusIn
  gen : Nat → LoadGen s K

/-- `BusType`. -/
inductive BusType where
  | pq
  | pv
  | slack
  deriving DecidableEq

/-- `BusControlState` with its `QLimitState`, lines 377-389; `recalc_after_limit_violation` only controls the rebuilding of the
Jacobian and is left out. -/
structure Control (K : Type) where
  type : BusType
  uRef : K
  hasLimits : Bool
  violated : Violation
  qMin : Option K
  qMax : Option K

variable {K : Type} [Field K] [LinearOrder K] [IsStrictOrderedRing K] {s : Symm}

/-- `BusControlState{}`. -/
def Control.fresh : Control K := ⟨.pq, 0, false, .none, some 0, some 0⟩

/-- `+=` with NaN. -/
def addNan (a b : Option K) : Option K :=
  match a, b with
  | some x, some y => some (x + y)
  | _, _ => none

/-- The loop over the regulators of one load/generator, lines 418-432. -/
def addRegulator (c : Control K) (r : RegIn K) : Control K :=
  if r.on then
    { c with type := .pv, uRef := r.uRef, qMin := addNan c.qMin r.lim.qMin, qMax := addNan c.qMax r.lim.qMax }
  else c

/-- The loop over the load/generators of one bus, lines 414-434. -/
def addLoadGen (inp : Input s K) (c : Control K) (g : Nat) : Control K :=
  if (inp.gen g).on then (inp.gen g).regs.foldl addRegulator c else c

/-- One bus of `set_bus_types_and_q_limits`, lines 404-442. -/
def busControl (inp : Input s K) (b : BusIn) : Control K :=
  if b.hasSource then { Control.fresh with type := .slack }
  else
    let c := b.loadGens.foldl (addLoadGen inp) Control.fresh
    if c.type = .pv then { c with hasLimits := c.qMin.isSome || c.qMax.isSome } else c

/-- State of the solver as far as it matters: `bus_control_`, `clamped_regulators_per_load_gen_`, `limit_check_countdown_`. -/
structure State (s : Symm) (K : Type) where
  ctl : Nat → Control K
  clamped : Nat → Option (RV s K)
  countdown : Int

/-- `initialize_derived_solver`, lines 246-253, and `set_bus_types_and_q_limits`: `limit_check_at_iteration` is 2, `no_limit_check`
is -1. `clamped_regulators_per_load_gen_` is NaN in a solver object, which never changes (`run_leaves_solver`). -/
def start (inp : Input s K) : State s K where
  ctl b := match inp.buses[b]? with
    | some bus => busControl inp bus
    | none => Control.fresh
  clamped _ := none
  countdown := if inp.buses.any (fun b => (busControl inp b).hasLimits) then 2 else -1

/-- `violated_limit`, lines 589-604. -/
def violatedLimit (tol : K) (q : RV s K) (qMin qMax : Option K) : Violation :=
  if (qMax.any fun m => decide (m + tol < total q)) = true then .upper
  else if (qMin.any fun m => decide (total q < m - tol)) = true then .lower
  else .none

/-- The specified reactive power of the regulating load/generators, lines 643-658; `none` is the exception
`UnsupportedLoadGenTypeForVoltageRegulator`. -/
def specifiedRegulating (inp : Input s K) : List Nat → Option (RV s K)
  | [] => some 0
  | g :: gs =>
    match specifiedRegulating inp gs with
    | none => none
    | some rest =>
      if (inp.gen g).on && (inp.gen g).regs.any (·.on) then
        if (inp.gen g).constPq then some (fun p => ((inp.gen g).regs.filter (·.on)).length * (inp.gen g).q p + rest p) else none
      else some rest

/-- The clamped value of a load/generator for one of its regulators, lines 669-693. -/
def clampValue (tol : K) (limit : Violation) (g : LoadGen s K) (r : RegIn K) : Option (RV s K) :=
  (if limit = .upper then r.lim.qMax else r.lim.qMin).map fun m => distribute tol m g.q

/-- The loop over the regulators of a switched bus, lines 666-695. -/
def clampGens (tol : K) (inp : Input s K) (limit : Violation) (cl : Nat → Option (RV s K)) (gs : List Nat) :
    Nat → Option (RV s K) :=
  gs.foldl (fun cl g => (inp.gen g).regs.foldl
    (fun cl r => if (inp.gen g).on && r.on then Function.update cl g (clampValue tol limit (inp.gen g) r) else cl) cl) cl

/-- One bus of `enforce_q_limits`, lines 610-706; `dq` is `del_x_pq_[bus].q()`. `none` is an exception. -/
def enforceBus (tol : K) (inp : Input s K) (dq : Nat → RV s K) (st : State s K) (b : Nat) : Option (State s K) :=
  let c := st.ctl b
  if c.type ≠ .pv ∨ c.hasLimits = false then some st
  else
    let gs := ((inp.buses[b]?).map (·.loadGens)).getD []
    match specifiedRegulating inp gs with
    | none => none
    | some spec =>
      let limit := violatedLimit tol (spec - dq b) c.qMin c.qMax
      if limit = .none then some st
      else some { st with
        clamped := clampGens tol inp limit st.clamped gs
        ctl := Function.update st.ctl b { c with violated := limit, type := .pq } }

/-- `enforce_q_limits`, lines 606-709. -/
def enforce (tol : K) (inp : Input s K) (dq : Nat → RV s K) (st : State s K) : Option (State s K) :=
  (List.range inp.buses.length).foldlM (enforceBus tol inp dq) st

/-- What an iteration brings: the reactive mismatch per bus at the begin and the largest voltage change at the end. -/
structure Iter (s : Symm) (K : Type) where
  dq : Nat → RV s K
  dev : Dbl K

/-- The part of `prepare_matrix_and_rhs` about limits, lines 310-313. -/
def prepare (tol : K) (inp : Input s K) (dq : Nat → RV s K) (st : State s K) : Option (State s K) :=
  let st := if 0 < st.countdown then { st with countdown := st.countdown - 1 } else st
  if st.countdown = 0 then enforce tol inp dq st else some st

/-- The end of `iterate_unknown`, lines 343-348: the returned deviation. -/
def iterateUnknown (errTol : Dbl K) (cacheRun : Bool) (dev : Dbl K) (st : State s K) : State s K × Dbl K :=
  if ((match dev, errTol with | .fin a, .fin b => decide (a ≤ b) | .fin _, .inf => true | .inf, .inf => true | _, _ => false) &&
      decide (0 < st.countdown) && !cacheRun) then
    ({ st with countdown := 0 }, .inf)
  else (st, dev)

/-- One iteration: the new state and the deviation given to the convergence test. -/
def iterate (tol : K) (errTol : Dbl K) (cacheRun : Bool) (inp : Input s K) (it : Iter s K) (st : State s K) :
    Option (State s K × Dbl K) :=
  (prepare tol inp it.dq st).map (iterateUnknown errTol cacheRun it.dev)

/-- Any number of iterations. -/
def iterations (tol : K) (errTol : Dbl K) (cacheRun : Bool) (inp : Input s K) : List (Iter s K) → State s K → Option (State s K)
  | [], st => some st
  | it :: its, st =>
    match iterate tol errTol cacheRun inp it st with
    | none => none
    | some (st', _) => iterations tol errTol cacheRun inp its st'

end PGM.PowerFlow.Newton
