import Verif.Topology.Sensors
import Verif.Component.Fault
import Verif.Container.Model
import Mathlib.Data.Complex.Basic

/-!
# Preparing the input of a calculation (C58)

Prefix of all paths: `P/` = `/repo/power_grid_model_c/power_grid_model/include/power_grid_model/`. Model of
`P/main_core/calculation_input_preparation.hpp`, on the topology and the couplings of `Verif.Topology`.

Simplifications: what the `calc_param` function of a component returns is given, except for faults; it is the subject of C19, C28 to C30 and C44. The vector of
structures with one vector per kind of component is one vector of vectors per kind. Links are not removed from the calculation in this version, so that the
nodes of the topology are those of the user (C32, C50). An access out of range and a missing entry of the map of IDs, which only an assertion excludes, is
`Stop.undefined`.
-/

namespace PGM.CalcInput

open PGM.Topology PGM.Container

variable {A : Type} [AddGroup A] {P : Type}

/-- How the preparation may end without a result. -/
inductive Stop where
  | undefined
  | lookup (e : Container.Err)
  | invalidShortCircuitType

/-- An access that is undefined out of range. -/
def lift {α : Type} : Option α → Except Stop α
  | none => .error .undefined
  | some x => .ok x

/-! ## Filling the vectors -/

/-- `resize` of the vectors of all islands. -/
def resized (d : P) (len : Nat → Nat) (n : Nat) : List (List P) := (List.range n).map fun g => List.replicate (len g) d

/-- `math_model_input_vect[math_idx.pos] = ...`, lines 116-118. -/
def put (v : List (List P)) (m : Nat × Nat) (x : P) : Except Stop (List (List P)) :=
  match v[m.1]? with
  | none => .error .undefined
  | some l => if m.2 < l.length then .ok (v.set m.1 (l.set m.2 x)) else .error .undefined

/-- One component of `prepare_input`, lines 112-120 and 132-140, and of `prepare_input_status`, lines 150-155. -/
def prepareStep (param : Nat → Except Stop P) (coup : Nat → Option (Nat × Nat)) (include_ : Nat → Bool) (v : List (List P)) (i : Nat) :
    Except Stop (List (List P)) :=
  if include_ i then
    match coup i with
    | none => .ok v
    | some m => (param i).bind (put v m)
  else .ok v

/-- `prepare_input`, lines 105-123 and 125-143, and `prepare_input_status`, lines 145-157, for `n` components. -/
def prepareInput (param : Nat → Except Stop P) (coup : Nat → Option (Nat × Nat)) (include_ : Nat → Bool) (n : Nat) (v : List (List P)) :
    Except Stop (List (List P)) :=
  (List.range n).foldlM (prepareStep param coup include_) v

/-- `get_component_by_sequence` and its `calc_param` or `status`. -/
def nth {α : Type} (l : List α) (f : α → P) (i : Nat) : Except Stop P := lift (l[i]?.map f)

/-! ## Power flow -/

/-- The components that a power flow uses: the grid with the sources, the parameters of the sources, the node, parameter and status of loads and generators,
the number of transformer tap regulators, and the regulated load or generator and the parameter of the voltage regulators. -/
structure PfComponents (A C V R : Type) where
  grid : Grid A
  source : List C
  load : List (Nat × V × Bool)
  taps : Nat
  regulator : List (Nat × R)

/-- The input of the power flow of all islands, `PowerFlowInput`, `P/calculation_parameters.hpp`, with the bus of every source, load and generator, and the
load or generator of every regulator, which are part of `MathModelTopology`. -/
structure PfInput (C V R : Type) where
  sourceBus : Nat → List Nat
  loadBus : Nat → List Nat
  regulatorLoad : Nat → List Nat
  source : List (List C)
  injection : List (List V)
  regulator : List (List R)
  status : List (List Bool)

/-- `couple_voltage_regulators`, `P/topology.hpp` lines 594-600: all regulators are numbered together, transformer tap regulators first
(`P/all_components.hpp` lines 37-40). -/
def coupleRegulators {R : Type} (criterion : Nat → Nat → Bool) (taps : Nat) (regulator : List (Nat × R)) (nIsland : Nat) (loadBus : Nat → List Nat)
    (loadCoup : Nat → Option (Nat × Nat)) : Option ((Nat → List Nat) × (Nat → Option (Nat × Nat))) :=
  coupleObjects criterion (fun i => regulator[i - taps]?.bind fun r => loadCoup r.1) (fun i => decide (taps ≤ i)) (taps + regulator.length) nIsland
    (fun g => (loadBus g).length) fun _ => none

/-- `prepare_power_flow_input`, lines 160-186. -/
def preparePowerFlow {C V R : Type} [Inhabited C] [Inhabited V] [Inhabited R] (criterion : Nat → Nat → Bool) (S : PfComponents A C V R) :
    Except Stop (PfInput C V R) := do
  let (s, _) ← lift (build S.grid)
  let (loadBus, loadCoup) ← lift (coupleAppliances criterion s (S.load.map (·.1)) fun _ => true)
  let (sourceBus, sourceCoup) ← lift (coupleAppliances criterion s (S.grid.sources.map (·.1)) fun i => S.grid.sources[i]?.any (·.2))
  let (regLoad, regCoup) ← lift (coupleRegulators criterion S.taps S.regulator s.islands.length loadBus loadCoup)
  let n := s.islands.length
  let source ← prepareInput (nth S.source id) sourceCoup (fun _ => true) S.grid.sources.length (resized default (fun g => (sourceBus g).length) n)
  let injection ← prepareInput (nth S.load (·.2.1)) loadCoup (fun _ => true) S.load.length (resized default (fun g => (loadBus g).length) n)
  let regulator ← prepareInput (nth S.regulator (·.2)) regCoup (fun _ => true) (S.taps + S.regulator.length) (resized default (fun g => (regLoad g).length) n)
  let status ← prepareInput (nth S.load (·.2.2)) loadCoup (fun _ => true) S.load.length (resized false (fun g => (loadBus g).length) n)
  .ok ⟨sourceBus, loadBus, regLoad, source, injection, regulator, status⟩

/-! ## State estimation -/

/-- The components that a state estimation uses: the grid with the sources, the node and status of shunts, and of loads and generators, the node and parameter
of voltage sensors, and the terminal, object and parameter of power sensors and current sensors. -/
structure SeComponents (A V W I : Type) where
  grid : Grid A
  shunt : List (Nat × Bool)
  load : List (Nat × Bool)
  voltage : List (Nat × V)
  power : List (Terminal × Nat × W)
  current : List (Terminal × Nat × I)

/-- The input of the state estimation of all islands, `StateEstimationInput`, `P/calculation_parameters.hpp`, with the object of every component. -/
structure SeInput (V W I : Type) where
  sourceBus : Nat → List Nat
  shuntBus : Nat → List Nat
  loadBus : Nat → List Nat
  voltageBus : Nat → List Nat
  powerObject : Kind → Nat → List Nat
  currentObject : Kind → Nat → List Nat
  sourceStatus : List (List Bool)
  shuntStatus : List (List Bool)
  loadStatus : List (List Bool)
  voltage : List (List V)
  power : Kind → List (List W)
  current : Kind → List (List I)

/-- The predicates of the calls for power sensors, lines 223-254, and for current sensors, lines 258-271. -/
def taken (k : Kind) (t : Terminal) : Bool :=
  match k with
  | .source => t = .source
  | .loadGen => t = .load || t = .generator
  | .shunt => t = .shunt
  | .branchFrom => t = .branchFrom || t = .branch3 0 || t = .branch3 1 || t = .branch3 2
  | .branchTo => t = .branchTo
  | .bus => t = .node

/-- One call of `prepare_input` for sensors. -/
def prepareSensors {W : Type} [Inhabited W] (sensors : List (Terminal × Nat × W)) (st : SensorState) (n : Nat) (k : Kind) : Except Stop (List (List W)) :=
  prepareInput (nth sensors (·.2.2)) st.2 (fun i => sensors[i]?.any fun x => taken k x.1) sensors.length (resized default (fun g => (st.1 k g).length) n)

/-- The number of objects of a kind in an island: `n_source`, `n_shunt`, `n_load_gen`, `n_branch` and `n_bus` of `MathModelTopology`. -/
def objectCount (s : State A) (c : Coupled) (sourceBus shuntBus loadBus : Nat → List Nat) (k : Kind) (g : Nat) : Nat :=
  match k with
  | .source => (sourceBus g).length
  | .shunt => (shuntBus g).length
  | .loadGen => (loadBus g).length
  | .branchFrom => (c.branchBus g).length
  | .branchTo => (c.branchBus g).length
  | .bus => (s.islands[g]?.map (·.phaseShift.length)).getD 0

/-- `prepare_state_estimation_input`, lines 188-275. -/
def prepareEstimation {V W I : Type} [Inhabited V] [Inhabited W] [Inhabited I] (criterion : Nat → Nat → Bool) (S : SeComponents A V W I) :
    Except Stop (SeInput V W I) := do
  let (s, c) ← lift (build S.grid)
  let (shuntBus, shuntCoup) ← lift (coupleAppliances criterion s (S.shunt.map (·.1)) fun _ => true)
  let (loadBus, loadCoup) ← lift (coupleAppliances criterion s (S.load.map (·.1)) fun _ => true)
  let (sourceBus, sourceCoup) ← lift (coupleAppliances criterion s (S.grid.sources.map (·.1)) fun i => S.grid.sources[i]?.any (·.2))
  let (voltageBus, voltageCoup) ← lift (coupleAppliances criterion s (S.voltage.map (·.1)) fun _ => true)
  let O : Objects := ⟨s.node, fun k => c.branch[k]?.getD none, fun k => c.branch3[k]?.getD none, sourceCoup, shuntCoup, loadCoup⟩
  let n := s.islands.length
  let nObj := objectCount s c sourceBus shuntBus loadBus
  let power ← lift (couplePowerSensors criterion O n nObj (S.power.map fun x => (x.1, x.2.1)))
  let current ← lift (coupleCurrentSensors criterion O n nObj (S.current.map fun x => (x.1, x.2.1)))
  let shuntStatus ← prepareInput (nth S.shunt (·.2)) shuntCoup (fun _ => true) S.shunt.length (resized false (fun g => (shuntBus g).length) n)
  let loadStatus ← prepareInput (nth S.load (·.2)) loadCoup (fun _ => true) S.load.length (resized false (fun g => (loadBus g).length) n)
  let sourceStatus ← prepareInput (nth S.grid.sources (·.2)) sourceCoup (fun _ => true) S.grid.sources.length
    (resized false (fun g => (sourceBus g).length) n)
  let voltage ← prepareInput (nth S.voltage (·.2)) voltageCoup (fun _ => true) S.voltage.length (resized default (fun g => (voltageBus g).length) n)
  let ps ← prepareSensors S.power power n .source
  let pl ← prepareSensors S.power power n .loadGen
  let ph ← prepareSensors S.power power n .shunt
  let pf ← prepareSensors S.power power n .branchFrom
  let pt ← prepareSensors S.power power n .branchTo
  let pb ← prepareSensors S.power power n .bus
  let cf ← prepareSensors S.current current n .branchFrom
  let ct ← prepareSensors S.current current n .branchTo
  .ok ⟨sourceBus, shuntBus, loadBus, voltageBus, power.1, current.1, sourceStatus, shuntStatus, loadStatus, voltage,
    fun k => match k with | .source => ps | .loadGen => pl | .shunt => ph | .branchFrom => pf | .branchTo => pt | .bus => pb,
    fun k => match k with | .branchFrom => cf | .branchTo => ct | _ => []⟩

/-! ## Short circuit -/

/-- `FaultCalcParam`, `P/calculation_parameters.hpp` lines 68-72: type and phase as in `P/common/enum.hpp` lines 89-107; an infinite admittance is `none`. -/
structure FaultParam where
  type : Int
  phase : Int
  y : Option ℂ

/-- A default constructed `FaultCalcParam`. -/
def unusedFault : FaultParam := ⟨Update.naIntS, Update.naIntS, some 0⟩

/-- `base_power_3p`, `P/common/common.hpp`. -/
def basePower3p : ℂ := 1000000

/-- `Fault::calc_param`, `P/component/fault.hpp` lines 50-68. Resistance and reactance are never NaN (constructor and `update`). -/
noncomputable def faultCalcParam (f : Update.Fault ℝ) (uRated : ℝ) : Except Stop FaultParam :=
  match Component.faultParam f with
  | none => .error .invalidShortCircuitType
  | some (t, p) =>
    match f.rF, f.xF with
    | some r, some x =>
      .ok ⟨t, p, open Classical in if r = 0 ∧ x = 0 then none else some ((uRated : ℂ) * uRated / basePower3p / (r + Complex.I * x))⟩
    | _, _ => .error .undefined

/-- The components that a short-circuit calculation uses. The container of all components is needed because a fault refers to its node by ID. -/
structure ScComponents (A τ α C : Type) where
  grid : Grid A
  components : Container α
  isBase : τ → Nat → Bool
  node : τ
  uRated : α → ℝ
  fault : List (Update.Fault ℝ)
  source : List C

/-- Where a fault is, lines 285-290. `get_seq<Node>(ID)`, `P/container.hpp` lines 184-189, relies on an assertion that the ID exists, and does not check the
type of the component. -/
def locate {τ α C : Type} (S : ScComponents A τ α C) (s : State A) (f : Update.Fault ℝ) : Except Stop (Option (Nat × Nat)) :=
  if f.status then
    match S.components.map f.faultObject with
    | none => .error .undefined
    | some idx =>
      match getSeq S.isBase S.node S.components idx with
      | none => .error .undefined
      | some k => if k < S.grid.nTotal then .ok (s.node k) else .error .undefined
  else .ok none

/-- The parameter of a fault with the rated voltage of its node, lines 318-321. -/
noncomputable def faultAt {τ α C : Type} (S : ScComponents A τ α C) (i : Nat) : Except Stop FaultParam :=
  match S.fault[i]? with
  | none => .error .undefined
  | some f =>
    match getItemById S.isBase S.node S.components f.faultObject with
    | .error e => .error (.lookup e)
    | .ok x => faultCalcParam f (S.uRated x)

/-- `is_unused`, lines 329-331. -/
def isUnused (f : FaultParam) : Bool := decide (f.type = Update.naIntS ∧ f.phase = Update.naIntS)

/-- The input of the short-circuit calculation of all islands, `ShortCircuitInput`, `P/calculation_parameters.hpp` lines 300-304, and the coupling of the
faults. -/
structure ScInput (C : Type) where
  sourceBus : Nat → List Nat
  faultBus : Nat → List Nat
  faultPlace : Nat → Option (Nat × Nat)
  fault : List (List FaultParam)
  source : List (List C)

/-- `prepare_short_circuit_input`, lines 277-338. The loops of lines 283-308 are those of `couple_object_components` with another way to find the bus. -/
noncomputable def prepareShortCircuit {τ α C : Type} [Inhabited C] (criterion : Nat → Nat → Bool) (S : ScComponents A τ α C) : Except Stop (ScInput C) := do
  let (s, _) ← lift (build S.grid)
  let (sourceBus, sourceCoup) ← lift (coupleAppliances criterion s (S.grid.sources.map (·.1)) fun i => S.grid.sources[i]?.any (·.2))
  let located ← S.fault.mapM (locate S s)
  let n := s.islands.length
  let (faultBus, faultCoup) ← lift (coupleObjects criterion (fun i => located[i]?.join) (fun _ => true) S.fault.length n
    (fun g => (s.islands[g]?.map (·.phaseShift.length)).getD 0) fun _ => none)
  let fault ← prepareInput (faultAt S) faultCoup (fun _ => true) S.fault.length (resized unusedFault (fun _ => S.fault.length) n)
  let source ← prepareInput (nth S.source id) sourceCoup (fun _ => true) S.grid.sources.length (resized default (fun g => (sourceBus g).length) n)
  .ok ⟨sourceBus, faultBus, faultCoup, fault.map fun l => l.takeWhile fun f => !isUnused f, source⟩

end PGM.CalcInput
