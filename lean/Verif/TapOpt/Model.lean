import Verif.Update.Component
import Mathlib.Algebra.Order.Field.Basic
import Mathlib.Logic.Function.Basic

/-!
# Model of the tap position optimisation

`P/optimizer/tap_position_optimizer.hpp` lines 442-514 and 702-1417 (`P` =
`power_grid_model_c/power_grid_model/include/power_grid_model`), with `P/main_model_impl.hpp` lines 337-347.

Conventions and simplifications.
* Regulated transformers of both types are numbered; `Tap` holds what the optimiser reads of a transformer and of its
  regulator. The ranking (`TransformerRanker`) is the subject of `Verif.TapRank`; its result is the argument `order`.
* The calculator is an arbitrary function of the number of the call, the method and the tap positions: every behaviour of the
  grid and of the solver is covered, also one that depends on what was calculated before. It returns, for every regulated
  transformer, the line-drop compensated voltage at its controlled node (`v_compensated` of `NodeState`, lines 720-729, which
  is `none` if it is NaN), or an error.
* The update of tap positions is the update of the transformers, `setTap` of `Verif.Update.Component`.
* The strategies `local_maximum` and `global_maximum` are treated alike by the code, and so are the two minimum strategies.
* Error messages are not modelled. `total_iterations` is `calls`. `log` records the positions at every call of the
  calculator, the latest first; the code has no such variable.
-/

namespace PGM.TapOpt

open PGM.Update

/-- What the optimiser knows of a regulated transformer (`TapRegulatorRef`, lines 528-535, `TransformerTapRegulatorCalcParam`):
the ends of the tap range, whether the regulator controls the tap side, whether the controlled node is part of the
calculation (lines 693-700), and the band. -/
structure Tap (K : Type) where
  tapMin : Int
  tapMax : Int
  atTap : Bool
  connected : Bool
  uSet : K
  uBand : K

/-- Tap positions. -/
abbrev Pos := Nat → Int

/-- The calculation methods that matter here: `linear` and the one that the user chose. -/
inductive Method | linear | chosen
deriving DecidableEq

/-- Exceptions: `IterationDiverge`, its subclass `MaxIterationReached`, `SparseMatrixError`, and all others
(`P/common/exception.hpp` lines 82-117). -/
inductive Err | diverge | maxIter | sparse | other
deriving DecidableEq, Repr

/-- `catch (IterationDiverge const&)` or `catch (SparseMatrixError const&)`, lines 1058-1062. -/
def Err.recoverable : Err → Bool
  | .diverge => true
  | .maxIter => true
  | .sparse => true
  | .other => false

/-- Voltages that a calculation returns. -/
abbrev Volt (K : Type) := Nat → Option K

/-- The calculator. -/
abbrev Calc (K : Type) := Nat → Method → Pos → Except Err (Volt K)

/-- `OptimizerStrategy`. -/
inductive Strategy | any | fastAny | maximum | minimum
deriving DecidableEq

/-- `SearchMethod`. -/
inductive Search | linear | binary
deriving DecidableEq

/-- `strategy_max`, lines 1070-1071. -/
def Strategy.isMax : Strategy → Bool
  | .maximum => true
  | _ => false

/-- `search_method`, `P/main_model_impl.hpp` lines 337-339. -/
def Strategy.search : Strategy → Search
  | .any => .linear
  | _ => .binary

/-! ## Steps -/

section
variable {K : Type}

/-- `one_step_tap_up`, lines 442-454. -/
def stepUp (T : Tap K) (p : Int) : Int :=
  if p = T.tapMax then T.tapMax else if T.tapMin < T.tapMax then p + 1 else p - 1

/-- `one_step_tap_down`, lines 455-467. -/
def stepDown (T : Tap K) (p : Int) : Int :=
  if p = T.tapMin then T.tapMin else if T.tapMin < T.tapMax then p - 1 else p + 1

/-- `one_step_control_voltage_up`, lines 469-475. -/
def voltageUp (T : Tap K) (p : Int) : Int := if T.atTap then stepUp T p else stepDown T p
/-- `one_step_control_voltage_down`, lines 477-483. -/
def voltageDown (T : Tap K) (p : Int) : Int := if T.atTap then stepDown T p else stepUp T p

/-- `std::partial_ordering`. -/
inductive Cmp | lt | eq | gt | unordered
deriving DecidableEq

variable [Field K] [LinearOrder K]

/-- `voltage <=> x` for a voltage that is a number. -/
def cmpVal (v x : K) : Cmp := if v < x then .lt else if v = x then .eq else .gt

/-- `VoltageBand::operator<=>`, lines 702-718. -/
def cmpBand (T : Tap K) : Option K → Cmp
  | none => .unordered
  | some v =>
    let lower := cmpVal v (T.uSet - 1 / 2 * T.uBand)
    let upper := cmpVal v (T.uSet + 1 / 2 * T.uBand)
    if lower = upper then lower else .eq

/-! ## Binary search -/

/-- `BinarySearch`, lines 795-913. -/
structure BinSearch where
  lower : Int
  upper : Int
  current : Int
  lastDown : Bool
  lastCheck : Bool
  tapReverse : Bool
  inevitable : Bool
  atTap : Bool
deriving DecidableEq

/-- `reset`, lines 868-877, with the constructor, lines 798-800. -/
def BinSearch.make (pos tapMin tapMax : Int) (atTap : Bool) : BinSearch :=
  ⟨min tapMin tapMax, max tapMin tapMax, pos, false, false, tapMax < tapMin, false, atTap⟩

/-- `get_end_of_bs`, line 805. -/
def BinSearch.atEnd (b : BinSearch) : Bool := b.lower ≥ b.upper

/-- `std::midpoint` of integers: rounded towards the first argument. -/
def midpoint (a b : Int) : Int := if a ≤ b then a + (b - a) / 2 else a - (a - b) / 2

/-- `search`, lines 892-903. -/
def BinSearch.mid (b : BinSearch) (preferHigher : Bool) : Int :=
  if b.atTap != preferHigher then midpoint b.upper b.lower else midpoint b.lower b.upper

/-- `recalibrate`, lines 811-826. -/
def BinSearch.recalibrate (b : BinSearch) (strategyMax : Bool) : BinSearch :=
  if b.tapReverse = (b.atTap != strategyMax) then { b with lower := b.current, lastDown := false }
  else { b with upper := b.current, lastDown := true }

/-- `adjust`, lines 879-890. -/
def BinSearch.adjust (b : BinSearch) (strategyMax : Bool) : BinSearch :=
  let b := if b.lastDown then { b with upper := b.current } else { b with lower := b.current }
  if b.lower < b.upper then { b with current := b.mid (strategyMax != b.tapReverse) } else b

/-- `propose_new_pos`, lines 828-837. -/
def BinSearch.propose (b : BinSearch) (strategyMax above : Bool) : BinSearch :=
  let isDown := (above == b.tapReverse) != b.atTap
  if b.lastCheck then { b with current := if isDown then b.lower else b.upper, inevitable := true }
  else { b with lastDown := isDown }.adjust strategyMax

/-- `repropose_tap`, lines 839-861: the search, the position and `tap_changed`. -/
def BinSearch.repropose (b : BinSearch) (strategyMax previousDown : Bool) : BinSearch × Int × Bool :=
  let tapPos := b.mid ((strategyMax != b.tapReverse) != b.atTap)
  let diff := tapPos - b.current
  if diff = 0 then
    if b.inevitable then (b, tapPos, false) else ({ b with inevitable := true }, tapPos, true)
  else if (diff = 1 ∧ previousDown) ∨ (diff = -1 ∧ ¬ previousDown) then
    ({ b with lastCheck := true, current := tapPos }, tapPos, true)
  else ({ b with current := tapPos }, tapPos, true)

/-! ## State -/

/-- The state: tap positions of the model, the binary searches by group and place, and the record of the calculations. -/
structure St where
  pos : Pos
  bs : Nat → Nat → BinSearch
  calls : Nat
  log : List Pos

/-- Fixed data of one optimisation. -/
structure Cfg (K : Type) where
  T : Nat → Tap K
  order : List (List Nat)
  solve : Calc K
  strategy : Strategy

/-- A call of the calculator. -/
def runCalc (C : Cfg K) (m : Method) (s : St) : St × Except Err (Volt K) :=
  ({ s with calls := s.calls + 1, log := s.pos :: s.log }, C.solve s.calls m s.pos)

/-- One entry of an update dataset. -/
def updateOne (C : Cfg K) (p : Pos) (u : Nat × Int) : Pos :=
  Function.update p u.1 (setTap (C.T u.1).tapMin (C.T u.1).tapMax (p u.1) u.2).1

/-- `update_state`, lines 1226-1241. -/
def updateState (C : Cfg K) (ups : List (Nat × Int)) (s : St) : St := { s with pos := ups.foldl (updateOne C) s.pos }

/-! ## Adjustment of one transformer -/

/-- `adjust_transformer_scan`, lines 1131-1163: the updates and `tap_changed`. -/
def adjustScan (C : Cfg K) (v : Volt K) (t : Nat) (s : St) : List (Nat × Int) × Bool :=
  if !(C.T t).connected then ([], false)
  else
    let new := match cmpBand (C.T t) (v t) with
      | .gt => voltageDown (C.T t) (s.pos t)
      | .lt => voltageUp (C.T t) (s.pos t)
      | _ => s.pos t
    if new ≠ s.pos t then ([(t, new)], true) else ([], false)

/-- Replace one binary search. -/
def setBs (s : St) (i j : Nat) (b : BinSearch) : St :=
  { s with bs := Function.update s.bs i (Function.update (s.bs i) j b) }

/-- The second half of `adjust_transformer_bs`, lines 1205-1219. -/
def adjustBsRest (C : Cfg K) (t i j : Nat) (b : BinSearch) (c : Cmp) (s : St) :
    St × Except Err (List (Nat × Int) × Bool) :=
  let r := (b.recalibrate C.strategy.isMax).repropose C.strategy.isMax b.lastDown
  if r.2.1 = s.pos t ∧ c ≠ .eq ∧ r.1.atEnd = false then
    (setBs s i j (BinSearch.make r.2.1 (C.T t).tapMin (C.T t).tapMax r.1.atTap), .error .maxIter)
  else (setBs s i j r.1, .ok ([(t, r.2.1)], r.2.2))

/-- `adjust_transformer_bs`, lines 1165-1224. -/
def adjustBs (C : Cfg K) (v : Volt K) (t i j : Nat) (s : St) : St × Except Err (List (Nat × Int) × Bool) :=
  if !(C.T t).connected then (s, .ok ([], false))
  else if (s.bs i j).atEnd || (s.bs i j).inevitable then (s, .ok ([], false))
  else
    let c := cmpBand (C.T t) (v t)
    let b := if c ≠ .eq then (s.bs i j).propose C.strategy.isMax (c = .gt) else s.bs i j
    if b.current ≠ s.pos t then (setBs s i j b, .ok ([(t, b.current)], true))
    else if C.strategy = .fastAny ∧ c = .eq then (setBs s i j b, .ok ([], false))
    else adjustBsRest C t i j b c s

/-- `adjust_transformer`, lines 1107-1117. -/
def adjustOne (C : Cfg K) (srch : Search) (v : Volt K) (t i j : Nat) (s : St) :
    St × Except Err (List (Nat × Int) × Bool) :=
  match srch with
  | .binary => adjustBs C v t i j s
  | .linear => (s, .ok (adjustScan C v t s))

/-! ## Ranks -/

/-- The inner loop of `RankIteration::iterate_ranks`, lines 746-748, over the transformers `l` of group `i`, the next of which
has place `j`; `ups` and `changed` are what the previous ones gave. -/
def adjustGroup (C : Cfg K) (srch : Search) (v : Volt K) (i : Nat) :
    List Nat → Nat → List (Nat × Int) → Bool → St → St × Except Err (List (Nat × Int) × Bool)
  | [], _, ups, changed, s => (s, .ok (ups, changed))
  | t :: l, j, ups, changed, s =>
    match adjustOne C srch v t i j s with
    | (s', .error e) => (s', .error e)
    | (s', .ok r) => adjustGroup C srch v i l (j + 1) (ups ++ r.1) (r.2 || changed) s'

/-- The outer loop, lines 744-758: the updates and the rank at which something changed, if any. -/
def adjustRanks (C : Cfg K) (srch : Search) (v : Volt K) :
    List (List Nat) → Nat → List (Nat × Int) → St → St × Except Err (Option (List (Nat × Int) × Nat))
  | [], _, _, s => (s, .ok none)
  | g :: gs, i, ups, s =>
    match adjustGroup C srch v i g 0 ups false s with
    | (s', .error e) => (s', .error e)
    | (s', .ok (ups', true)) => (s', .ok (some (ups', i)))
    | (s', .ok (ups', false)) => adjustRanks C srch v gs (i + 1) ups' s'

/-- The counting in `iterate_ranks`, lines 749-753: one more iteration in this rank, none in the later ones. -/
def bump : List Nat → Nat → List Nat
  | [], _ => []
  | c :: cs, 0 => (c + 1) :: cs.map (fun _ => 0)
  | c :: cs, r + 1 => c :: bump cs r

/-- `tap_range`, lines 510-514. -/
def tapRange (T : Tap K) : Nat := (T.tapMax - T.tapMin).natAbs

/-- `max_tap_ranges_per_rank`, lines 990-996. The optimiser is made for one calculation, so that it is empty at first. -/
def maxRanges (C : Cfg K) : List Nat := C.order.map fun g => (g.map fun t => tapRange (C.T t)).foldl max 0

/-! ## Iterations -/

/-- The loop of `iterate`, lines 1076-1103; `none` if the fuel does not suffice. -/
def iterLoop (C : Cfg K) (m : Method) (srch : Search) : Nat → List Nat → Volt K → St → Option (St × Except Err (Volt K))
  | fuel, counts, v, s =>
    match adjustRanks C srch v C.order 0 [] s with
    | (s', .error e) => some (s', .error e)
    | (s', .ok none) => some (s', .ok v)
    | (s', .ok (some (ups, r))) =>
      if (bump counts r).getD r 0 > 2 * (maxRanges C).getD r 0 then some (s', .error .maxIter)
      else
        match runCalc C m (updateState C ups s') with
        | (s'', .error e) => some (s'', .error e)
        | (s'', .ok v') =>
          match fuel with
          | 0 => none
          | fuel + 1 => iterLoop C m srch fuel (bump counts r) v' s''

/-- `iterate`, lines 1065-1105. -/
def iterate (C : Cfg K) (m : Method) (srch : Search) (fuel : Nat) (s : St) : Option (St × Except Err (Volt K)) :=
  match runCalc C m s with
  | (s', .error e) => some (s', .error e)
  | (s', .ok v) => iterLoop C m srch fuel (C.order.map fun _ => 0) v s'

/-- `fallback`, lines 1051-1054. -/
def fallback (C : Cfg K) (srch : Search) (fuel : Nat) (s : St) : Option (St × Except Err (Volt K)) :=
  match iterate C .linear srch fuel s with
  | none => none
  | some (s', .error e) => some (s', .error e)
  | some (s', .ok _) => iterate C .chosen srch fuel s'

/-- `iterate_with_fallback`, lines 1048-1063. -/
def iterateWithFallback (C : Cfg K) (srch : Search) (fuel : Nat) (s : St) : Option (St × Except Err (Volt K)) :=
  match iterate C .chosen srch fuel s with
  | none => none
  | some (s', .ok v) => some (s', .ok v)
  | some (s', .error e) => if e.recoverable then fallback C srch fuel s' else some (s', .error e)

/-- `regulate_transformers`, lines 1341-1360. -/
def regulateAll (C : Cfg K) (f : Tap K → Int → Int) (s : St) : St :=
  updateState C (C.order.flatten.map fun t => (t, f (C.T t) (s.pos t))) s

/-- `max_voltage_pos`, lines 1260-1267. -/
def maxVoltagePos (T : Tap K) (_ : Int) : Int := if T.atTap then T.tapMax else T.tapMin
/-- `min_voltage_pos`, lines 1268-1275. -/
def minVoltagePos (T : Tap K) (_ : Int) : Int := if T.atTap then T.tapMin else T.tapMax

/-- `update_binary_search`, lines 1243-1255, for one search. -/
def refresh (C : Cfg K) (s : St) (i j : Nat) : BinSearch :=
  match (C.order.getD i [])[j]? with
  | none => s.bs i j
  | some t => { s.bs i j with current := s.pos t, lastCheck := false, inevitable := false }

/-- The first half of `pilot_run`, lines 1257-1289. -/
def pilotMove (C : Cfg K) (s : St) : St :=
  match C.strategy with
  | .maximum => regulateAll C maxVoltagePos s
  | .minimum => regulateAll C minVoltagePos s
  | _ => s

/-- `pilot_run`, lines 1257-1298. -/
def pilotRun (C : Cfg K) (s : St) : St :=
  match C.strategy.search with
  | .binary => { pilotMove C s with bs := refresh C (pilotMove C s) }
  | .linear => pilotMove C s

/-- `exploit_neighborhood`, lines 1300-1328. -/
def exploit (C : Cfg K) (s : St) : St :=
  match C.strategy with
  | .maximum => regulateAll C voltageUp s
  | .minimum => regulateAll C voltageDown s
  | _ => s

/-- `bs_prep`, lines 1001-1015, for one search. -/
def prepare (C : Cfg K) (s : St) (i j : Nat) : BinSearch :=
  match (C.order.getD i [])[j]? with
  | none => s.bs i j
  | some t => BinSearch.make (s.pos t) (C.T t).tapMin (C.T t).tapMax (C.T t).atTap

/-- What the optimisation returns: the result of the last calculation and the tap positions (`produce_output`,
lines 1031-1046). -/
structure Output (K : Type) where
  volt : Volt K
  taps : List (Nat × Int)

/-- `produce_output`, lines 1031-1046. -/
def produceOutput (C : Cfg K) (s : St) (v : Volt K) : Output K := ⟨v, C.order.flatten.map fun t => (t, s.pos t)⟩

/-- The inner `optimize`, lines 1017-1029. -/
def optimizeInner (C : Cfg K) (fuel : Nat) (s : St) : Option (St × Except Err (Output K)) :=
  match iterateWithFallback C C.strategy.search fuel (pilotRun C s) with
  | none => none
  | some (s', .error e) => some (s', .error e)
  | some (s', .ok v) =>
    if C.strategy = .any ∨ C.strategy = .fastAny then some (s', .ok (produceOutput C s' v))
    else
      match iterateWithFallback C .linear fuel (exploit C s') with
      | none => none
      | some (s'', .error e) => some (s'', .error e)
      | some (s'', .ok v') => some (s'', .ok (produceOutput C s'' v'))

/-- `optimize`, lines 965-977, with `opt_prep`, lines 983-999, and `cache_states`, lines 1362-1385. -/
def optimize (C : Cfg K) (fuel : Nat) (s : St) : Option (St × Except Err (Output K)) :=
  let cache := C.order.flatten.map fun t => (t, s.pos t)
  match optimizeInner C fuel { s with bs := prepare C s } with
  | none => none
  | some (s', r) => some (updateState C cache s', r)

end

end PGM.TapOpt
