import Verif.Input.Model
import Verif.Topology.Sensors
import Verif.PowerFlow.Result
import Mathlib.Analysis.SpecialFunctions.Complex.Arg
import Mathlib.Logic.Function.Basic

/-!
# Output: from the results of the solvers to the records of the components

Prefix of all paths: `P/` = `/repo/power_grid_model_c/power_grid_model/include/power_grid_model/`. Model of the steady-state part of
`P/main_core/output.hpp` (nodes, branches, branches with three sides, appliances and sensors), of the index queries behind it
(`P/main_core/state_queries.hpp`, `P/main_core/container_queries.hpp`), of the registration of components by sequence number
(`P/main_core/topology.hpp`), of the injections of the nodes (`P/main_core/topological_node_output.hpp`) and of the output functions of the
components.

Simplifications. The components are those of `Verif.Input.Model`; their electrical data (rated voltages, states, measured values) are looked up by ID
instead of being members. The coupling between components and islands is `Topology.Objects`. Arithmetic is exact. A record that the code
obtains by a read out of range, through a null index or with an exception is `none`. Apparent powers, power factors, loadings and short-circuit
records are in `Verif.Reports.Model`. Removal of links from the calculation is dormant in this version of the code (every user node is its own topological node,
`P/main_model_impl.hpp` line 210), so `user_nodes_to_topo_nodes[x]` is `{x, 0}`.
-/

namespace PGM.Output

open PGM.Container PGM.Input PGM.Update PGM.Topology PGM.PowerFlow PGM.Component

variable {K : Type} {σ : Symm}

/-! ## Sequence numbers -/

/-- The gettable types that are used for sequence numbers, `P/all_components.hpp`: base classes, and every type itself. -/
inductive Cls where
  | node | branch | branch3 | shunt | source | loadGen | powerSensor | voltageSensor | currentSensor | regulator
  | only (t : CompType)
deriving DecidableEq

/-- `std::derived_from` for the storageable types, in the order of `Input.group`. -/
def isBaseOf : Cls → Nat → Bool
  | .node, g => g == 0
  | .branch, g => 1 ≤ g && g ≤ 5
  | .branch3, g => g == 6
  | .shunt, g => g == 7
  | .source, g => g == 8
  | .loadGen, g => 9 ≤ g && g ≤ 12
  | .powerSensor, g => 13 ≤ g && g ≤ 14
  | .voltageSensor, g => 15 ≤ g && g ≤ 16
  | .currentSensor, g => 17 ≤ g && g ≤ 18
  | .regulator, g => 20 ≤ g && g ≤ 21
  | .only t, g => g == group t

/-- The base class by which the components of a type are numbered, `P/main_core/state_queries.hpp` lines 88-157. -/
def baseOf : CompType → Cls
  | .node => .node
  | .line | .asymLine | .link | .genericBranch | .transformer => .branch
  | .threeWindingTransformer => .branch3
  | .shunt => .shunt
  | .source => .source
  | .symGen | .asymGen | .symLoad | .asymLoad => .loadGen
  | .symPowerSensor | .asymPowerSensor => .powerSensor
  | .symVoltageSensor | .asymVoltageSensor => .voltageSensor
  | .symCurrentSensor | .asymCurrentSensor => .currentSensor
  | .fault => .only .fault
  | .tapRegulator | .voltageRegulator => .regulator

/-- `get_component_sequence_idx<Cls>(components, id)`, `P/main_core/container_queries.hpp` lines 29-33 with `P/container.hpp` lines 184-189. -/
def seqById (cls : Cls) (c : Container (Comp K)) (id : Int) : Option Nat := do
  let idx ← c.map id
  getSeq isBaseOf cls c idx

/-- Entry `s` of the vector that `apply_registration<Cls>` fills, `P/main_core/topology.hpp` lines 34-44. -/
def registered {β : Type} (cls : Cls) (c : Container (Comp K)) (f : Comp K → Option β) (s : Nat) : Option β :=
  match (iter isBaseOf cls c)[s]? with
  | some (.ok x) => f x
  | _ => none

/-- `branch_node_idx`, `P/main_core/topology.hpp` lines 52-59. -/
def branchNodes (c : Container (Comp K)) (x : Comp K) : Option (Nat × Nat) := do
  let n1 ← seqById .node c x.elem.n1
  let n2 ← seqById .node c x.elem.n2
  some (n1, n2)

/-- `source_node_idx`, `shunt_node_idx`, `load_gen_node_idx`, `P/main_core/topology.hpp` lines 71-97. -/
def applianceNode (c : Container (Comp K)) (x : Comp K) : Option Nat := seqById .node c x.elem.n1

/-- `voltage_sensor_node_idx`, `P/main_core/topology.hpp` lines 99-106. -/
def voltageSensorNode (c : Container (Comp K)) (x : Comp K) : Option Nat := seqById .node c x.elem.object

/-- The values of `MeasuredTerminalType`, `P/common/enum.hpp` lines 43-54. -/
def terminalOf (n : Int) : Option Terminal :=
  if n = 0 then some .branchFrom
  else if n = 1 then some .branchTo
  else if n = 2 then some .source
  else if n = 3 then some .shunt
  else if n = 4 then some .load
  else if n = 5 then some .generator
  else if n = 6 then some (.branch3 0)
  else if n = 7 then some (.branch3 1)
  else if n = 8 then some (.branch3 2)
  else if n = 9 then some .node
  else none

/-- The switch in `P/main_core/topology.hpp` lines 118-141. -/
def powerSensorClass : Terminal → Cls
  | .branchFrom | .branchTo => .branch
  | .source => .source
  | .shunt => .shunt
  | .load | .generator => .loadGen
  | .branch3 _ => .branch3
  | .node => .node

/-- `power_sensor_object_idx`, `P/main_core/topology.hpp` lines 108-143. -/
def powerSensorObject (c : Container (Comp K)) (x : Comp K) : Option Nat := do
  let t ← terminalOf x.elem.terminal
  seqById (powerSensorClass t) c x.elem.object

/-- The switch in `P/main_core/topology.hpp` lines 159-172. -/
def currentSensorClass : Terminal → Option Cls
  | .branchFrom | .branchTo => some .branch
  | .branch3 _ => some .branch3
  | _ => none

/-- `current_sensor_object_idx`, `P/main_core/topology.hpp` lines 150-173. -/
def currentSensorObject (c : Container (Comp K)) (x : Comp K) : Option Nat := do
  let t ← terminalOf x.elem.terminal
  let cls ← currentSensorClass t
  seqById cls c x.elem.object

/-! ## Results of the solvers -/

/-- `BranchSolverOutput`, `P/calculation_parameters.hpp`. -/
structure BranchSol (σ : Symm) where
  sF : CV σ
  sT : CV σ
  iF : CV σ
  iT : CV σ

/-- `ApplianceSolverOutput`. -/
structure ApplSol (σ : Symm) where
  s : CV σ
  i : CV σ

/-- `SolverOutput`, `P/calculation_parameters.hpp` lines 338-350. -/
structure Sol (σ : Symm) where
  u : List (CV σ)
  busInjection : List (CV σ)
  branch : List (BranchSol σ)
  source : List (ApplSol σ)
  shunt : List (ApplSol σ)
  loadGen : List (ApplSol σ)

/-- `solver_output[math_id.group].member[math_id.pos]`. -/
def at2 {β : Type} (sol : List (Sol σ)) (member : Sol σ → List β) (m : Nat × Nat) : Option β := do
  let s ← sol[m.1]?
  (member s)[m.2]?

/-! ## Electrical data -/

/-- `base_power<sym>`, `P/common/common.hpp` lines 93-95: one third of the power for each phase. -/
noncomputable def basePower (σ : Symm) : ℝ := match σ with | .sym => 1000000 | .asym => 1000000 / 3

/-- `u_scale<sym>`, `P/common/common.hpp` line 96. -/
noncomputable def uScale (σ : Symm) : ℝ := match σ with | .sym => 1 | .asym => 1 / √3

/-- The measured power in watt and var; an entry that was never given counts as zero (`s_measured_{}`). -/
inductive PowerData where
  | sym (p q : ℝ)
  | asym (p q : Fin 3 → ℝ)

/-- The measured voltage in volt, and the angle if it is measured. -/
inductive VoltageData where
  | sym (u : ℝ) (angle : Option ℝ)
  | asym (u : Fin 3 → ℝ) (angle : Fin 3 → Option ℝ)

/-- The measured current in ampere and its angle. -/
inductive CurrentData where
  | sym (i angle : ℝ)
  | asym (i angle : Fin 3 → ℝ)

/-- Electrical data by ID: rated voltage of a node, status of an appliance, measured values, and whether the angle of a current sensor is relative to the
voltage (`local_angle`) or to the reference (`global_angle`). -/
structure Attr where
  uRated : Int → ℝ
  on : Int → Bool
  power : Int → PowerData
  voltage : Int → VoltageData
  current : Int → CurrentData
  localAngle : Int → Bool

/-- The base current of the components and sensors: `base_power_3p / u / sqrt3`, for instance `P/component/generic_branch.hpp` and
`P/component/current_sensor.hpp` line 92. -/
noncomputable def baseCurrent (u : ℝ) : ℝ := 1000000 / u / √3

/-- The rated voltage of the base current at the to side: lines and asymmetric lines use that of the from side, `P/component/line.hpp`. -/
def ratedTo (A : Attr) (x : Comp K) : ℝ :=
  match x.type with
  | .line | .asymLine => A.uRated x.elem.n1
  | _ => A.uRated x.elem.n2

/-! ## Records -/

/-- `NodeOutput`. -/
structure NodeOut (σ : Symm) where
  id : Int
  energized : Bool
  uPu : RV σ ℝ
  u : RV σ ℝ
  uAngle : RV σ ℝ
  p : RV σ ℝ
  q : RV σ ℝ

/-- `BranchOutput`. -/
structure BranchOut (σ : Symm) where
  id : Int
  energized : Bool
  pFrom : RV σ ℝ
  qFrom : RV σ ℝ
  iFrom : RV σ ℝ
  pTo : RV σ ℝ
  qTo : RV σ ℝ
  iTo : RV σ ℝ

/-- `Branch3Output`. -/
structure Branch3Out (σ : Symm) where
  id : Int
  energized : Bool
  p : Fin 3 → RV σ ℝ
  q : Fin 3 → RV σ ℝ
  i : Fin 3 → RV σ ℝ

/-- `ApplianceOutput`. -/
structure ApplOut (σ : Symm) where
  id : Int
  energized : Bool
  p : RV σ ℝ
  q : RV σ ℝ
  i : RV σ ℝ

/-- `PowerSensorOutput`. -/
structure PowerSensorOut (σ : Symm) where
  id : Int
  energized : Bool
  pResidual : RV σ ℝ
  qResidual : RV σ ℝ

/-- `VoltageSensorOutput`; an angle residual that is NaN is `none`. -/
structure VoltageSensorOut (σ : Symm) where
  id : Int
  energized : Bool
  uResidual : RV σ ℝ
  uAngleResidual : Fin σ.phases → Option ℝ

/-- `CurrentSensorOutput`. -/
structure CurrentSensorOut (σ : Symm) where
  id : Int
  energized : Bool
  iResidual : RV σ ℝ
  iAngleResidual : RV σ ℝ

/-- `Node::get_output`, `P/component/node.hpp` lines 36-46. -/
noncomputable def nodeOutput (A : Attr) (x : Comp K) (u inj : CV σ) : NodeOut σ where
  id := x.elem.id
  energized := true
  uPu := fun j => ‖u j‖
  u := fun j => uScale σ * A.uRated x.elem.id * ‖u j‖
  uAngle := fun j => (u j).arg
  p := fun j => basePower σ * (inj j).re
  q := fun j => basePower σ * (inj j).im

/-- `Node::get_null_output`, `P/component/node.hpp` lines 62-66. -/
def nodeNull (x : Comp K) : NodeOut σ := ⟨x.elem.id, false, 0, 0, 0, 0, 0⟩

/-- `Branch::get_output`, `P/component/branch.hpp` lines 93-111. -/
noncomputable def branchOutput (A : Attr) (x : Comp K) (r : BranchSol σ) : BranchOut σ where
  id := x.elem.id
  energized := true
  pFrom := fun j => basePower σ * (r.sF j).re
  qFrom := fun j => basePower σ * (r.sF j).im
  iFrom := fun j => baseCurrent (A.uRated x.elem.n1) * ‖r.iF j‖
  pTo := fun j => basePower σ * (r.sT j).re
  qTo := fun j => basePower σ * (r.sT j).im
  iTo := fun j => baseCurrent (ratedTo A x) * ‖r.iT j‖

/-- `Branch::get_null_output`, `P/component/branch.hpp` lines 141-153. -/
def branchNull (x : Comp K) : BranchOut σ := ⟨x.elem.id, false, 0, 0, 0, 0, 0, 0⟩

/-- The node of a side of a branch with three sides. -/
def node3 (x : Comp K) : Fin 3 → Int := ![x.elem.n1, x.elem.n2, x.elem.n3]

/-- `Branch3::get_output`, `P/component/branch3.hpp` lines 112-141. -/
noncomputable def branch3Output (A : Attr) (x : Comp K) (r : Fin 3 → BranchSol σ) : Branch3Out σ where
  id := x.elem.id
  energized := true
  p := fun m j => basePower σ * ((r m).sF j).re
  q := fun m j => basePower σ * ((r m).sF j).im
  i := fun m j => baseCurrent (A.uRated (node3 x m)) * ‖(r m).iF j‖

/-- `Branch3::get_null_output`, `P/component/branch3.hpp` lines 172-190. -/
def branch3Null (x : Comp K) : Branch3Out σ := ⟨x.elem.id, false, 0, 0, 0⟩

/-- `injection_direction`: `P/component/load_gen.hpp` lines 121 and 141, `P/component/source.hpp` line 139, `P/component/shunt.hpp` line 109. -/
def injectionDirection : CompType → ℝ
  | .symLoad | .asymLoad | .shunt => -1
  | _ => 1

/-- `Appliance::get_output`, `P/component/appliance.hpp` lines 66-91. `energized(true)` is the status. -/
noncomputable def applOutput (A : Attr) (x : Comp K) (r : ApplSol σ) : ApplOut σ where
  id := x.elem.id
  energized := A.on x.elem.id
  p := fun j => basePower σ * (r.s j).re * injectionDirection x.type
  q := fun j => basePower σ * (r.s j).im * injectionDirection x.type
  i := fun j => baseCurrent (A.uRated x.elem.n1) * ‖r.i j‖

/-- `Appliance::get_null_output`, `P/component/appliance.hpp` lines 55-59. -/
def applNull (x : Comp K) : ApplOut σ := ⟨x.elem.id, false, 0, 0, 0⟩

/-! ## Sensors -/

/-- A value with the symmetry of the sensor. -/
inductive Per (α : Type) where
  | sym (x : α)
  | asym (x : Fin 3 → α)

/-- `convert_direction`, `P/component/power_sensor.hpp` lines 57-63. -/
def convertDirection : Terminal → ℝ
  | .load | .shunt => -1
  | _ => 1

/-- `s_measured_`, `P/component/power_sensor.hpp` lines 129-137. -/
noncomputable def sMeasured (t : Terminal) : PowerData → Per ℂ
  | .sym p q => .sym ⟨convertDirection t / basePower .sym * p, convertDirection t / basePower .sym * q⟩
  | .asym p q => .asym fun j => ⟨convertDirection t / basePower .asym * p j, convertDirection t / basePower .asym * q j⟩

/-- `process_mean_val<sym_calc>(s_measured_ - s)`, `P/component/power_sensor.hpp` lines 182-185 with `P/common/three_phase_tensor.hpp` lines
304-310. -/
noncomputable def sResidual (m : Per ℂ) (s : CV σ) : CV σ :=
  match σ, m with
  | .sym, .sym x => fun j => x - s j
  | .sym, .asym x => fun j => ((x 0 - s j) + (x 1 - s j) + (x 2 - s j)) / 3
  | .asym, .sym x => fun j => x - s j
  | .asym, .asym x => fun j => x j - s j

/-- `PowerSensor::get_generic_output`, `P/component/power_sensor.hpp` lines 182-191. -/
noncomputable def powerSensorOutput (A : Attr) (x : Comp K) (t : Terminal) (s : CV σ) : PowerSensorOut σ where
  id := x.elem.id
  energized := true
  pResidual := fun j => (sResidual (sMeasured t (A.power x.elem.id)) s j * (convertDirection t * basePower σ : ℝ)).re
  qResidual := fun j => (sResidual (sMeasured t (A.power x.elem.id)) s j * (convertDirection t * basePower σ : ℝ)).im

/-- `get_null_output`, `P/component/power_sensor.hpp` lines 41-43. -/
def powerSensorNull (x : Comp K) : PowerSensorOut σ := ⟨x.elem.id, false, 0, 0⟩

/-- `phase_mod_2pi`, `P/common/three_phase_tensor.hpp` lines 231-236. -/
noncomputable def phaseMod (θ : ℝ) : ℝ := (Complex.exp (θ * Complex.I)).arg

/-- `pos_seq`, `P/common/three_phase_tensor.hpp`. -/
noncomputable def posSeqOf (x : Fin 3 → ℂ) : ℂ := (x 0 + a * x 1 + a2 * x 2) / 3

/-- All angles of a vector, if none is NaN (`has_angle`, `P/component/voltage_sensor.hpp` lines 121-127). -/
def allAngles (θ : Fin 3 → Option ℝ) : Option (Fin 3 → ℝ) :=
  match θ 0, θ 1, θ 2 with
  | some a, some b, some c => some ![a, b, c]
  | _, _, _ => none

/-- `sym_calc_param` of a voltage sensor, `P/component/voltage_sensor.hpp` lines 129-138, in per unit: a phasor, or a magnitude. `u` is the
rated voltage. -/
noncomputable def voltageCalcSym (u : ℝ) : VoltageData → ℂ ⊕ ℝ
  | .sym v (some θ) => .inl ((v / (u * uScale .sym) : ℝ) * Complex.exp (θ * Complex.I))
  | .sym v none => .inr (v / (u * uScale .sym))
  | .asym v θ =>
    match allAngles θ with
    | some θ => .inl (posSeqOf fun j => (v j / (u * uScale .asym) : ℝ) * Complex.exp (θ j * Complex.I))
    | none => .inr ((v 0 / (u * uScale .asym) + v 1 / (u * uScale .asym) + v 2 / (u * uScale .asym)) / 3)

/-- `get_sym_output`, `P/component/voltage_sensor.hpp` lines 150-163: the two residuals. -/
noncomputable def voltageResidualSym (uRated : ℝ) (d : VoltageData) (u : ℂ) : ℝ × Option ℝ :=
  match voltageCalcSym uRated d with
  | .inl z => ((‖z‖ - ‖u‖) * uRated, some (phaseMod (z.arg - u.arg)))
  | .inr v => ((v - ‖u‖) * uRated, none)

/-- `u_measured_` and `u_angle_measured_` of phase `j`. -/
noncomputable def voltagePhase (uRated : ℝ) : VoltageData → Fin 3 → ℝ × Option ℝ
  | .sym v θ, _ => (v / (uRated * uScale .sym), θ)
  | .asym v θ, j => (v j / (uRated * uScale .asym), θ j)

/-- `get_asym_output`, `P/component/voltage_sensor.hpp` lines 165-172: the two residuals of a phase. -/
noncomputable def voltageResidualAsym (uRated : ℝ) (d : VoltageData) (u : Fin 3 → ℂ) (j : Fin 3) : ℝ × Option ℝ :=
  (((voltagePhase uRated d j).1 - ‖u j‖) * uRated / √3, (voltagePhase uRated d j).2.map fun θ => phaseMod (θ - (u j).arg))

/-- The residuals of a voltage sensor for either kind of calculation. -/
noncomputable def voltageResidual (uRated : ℝ) (d : VoltageData) (u : CV σ) : Fin σ.phases → ℝ × Option ℝ :=
  match σ, u with
  | .sym, u => fun j => voltageResidualSym uRated d (u j)
  | .asym, u => voltageResidualAsym uRated d u

/-- The output of a voltage sensor; its rated voltage is that of its node. -/
noncomputable def voltageSensorOutput (A : Attr) (x : Comp K) (u : CV σ) : VoltageSensorOut σ where
  id := x.elem.id
  energized := true
  uResidual := fun j => (voltageResidual (A.uRated x.elem.object) (A.voltage x.elem.id) u j).1
  uAngleResidual := fun j => (voltageResidual (A.uRated x.elem.object) (A.voltage x.elem.id) u j).2

/-- `get_null_output`, `P/component/voltage_sensor.hpp` lines 50-52. -/
def voltageSensorNull (x : Comp K) : VoltageSensorOut σ := ⟨x.elem.id, false, 0, fun _ => some 0⟩

/-- `calc_param<sym_calc>().measurement.value()`, `P/component/current_sensor.hpp` lines 145-150 with `P/common/statistics.hpp` lines 171-249. -/
noncomputable def iMeasured (base : ℝ) (d : CurrentData) : CV σ :=
  match σ, d with
  | .sym, .sym i θ => fun _ => (i / base : ℝ) * Complex.exp (θ * Complex.I)
  | .sym, .asym i θ => fun _ => posSeqOf fun j => (i j / base : ℝ) * Complex.exp (θ j * Complex.I)
  | .asym, .sym i θ => fun j => (i / base : ℝ) * spread .asym (Complex.exp (θ * Complex.I)) j
  | .asym, .asym i θ => fun j => (i j / base : ℝ) * Complex.exp (θ j * Complex.I)

/-- `i_output`, `P/component/current_sensor.hpp` lines 167-182: in the frame of the measurement. -/
noncomputable def iFrame (localAngle : Bool) (i u : ℂ) : ℂ :=
  if localAngle then star i * (Real.cos u.arg + Complex.I * Real.sin u.arg) else i

/-- `CurrentSensor::get_generic_output`, `P/component/current_sensor.hpp` lines 159-187. `uRated` is the rated voltage at the terminal, from which
the constructor computes `base_current_`, lines 90-95. -/
noncomputable def currentSensorOutput (A : Attr) (x : Comp K) (uRated : ℝ) (i u : CV σ) : CurrentSensorOut σ where
  id := x.elem.id
  energized := true
  iResidual := fun j => (‖iMeasured (σ := σ) (baseCurrent uRated) (A.current x.elem.id) j‖ - ‖iFrame (A.localAngle x.elem.id) (i j) (u j)‖)
    * baseCurrent uRated
  iAngleResidual := fun j => phaseMod ((iMeasured (σ := σ) (baseCurrent uRated) (A.current x.elem.id) j).arg
    - (iFrame (A.localAngle x.elem.id) (i j) (u j)).arg)

/-- `get_null_output` of a current sensor, `P/component/current_sensor.hpp`. -/
def currentSensorNull (x : Comp K) : CurrentSensorOut σ := ⟨x.elem.id, false, 0, 0⟩

/-! ## Records of one component, from its sequence number -/

/-- `add_appliance_injection`, one step: `P/main_core/topological_node_output.hpp` lines 50-72. -/
noncomputable def addInjection (cls : Cls) (member : Sol σ → List (ApplSol σ)) (coup : Nat → Option (Nat × Nat)) (c : Container (Comp K))
    (sol : List (Sol σ)) (acc : Nat → CV σ) (s : Nat) : Option (Nat → CV σ) :=
  match coup s with
  | none => some acc
  | some m => do
    let r ← at2 sol member m
    let n ← registered cls c (applianceNode c) s
    some (Function.update acc n (acc n + r.s))

/-- `add_appliance_injection<ComponentType>`. -/
noncomputable def addInjections (t : CompType) (member : Sol σ → List (ApplSol σ)) (coup : Nat → Option (Nat × Nat)) (c : Container (Comp K))
    (sol : List (Sol σ)) (acc : Nat → CV σ) : Option (Nat → CV σ) := do
  let o ← getStartIdx isBaseOf (baseOf t) (.only t) c
  ((List.range (size isBaseOf (.only t) c)).map (o + ·)).foldlM (addInjection (baseOf t) member coup c sol) acc

/-- `solve_topological_nodes`: `bus_injection` of every node, `P/main_core/topological_node_output.hpp` lines 74-111. -/
noncomputable def nodeInjections (c : Container (Comp K)) (O : Objects) (sol : List (Sol σ)) : Option (Nat → CV σ) := do
  let acc ← addInjections .source Sol.source O.source c sol 0
  let acc ← addInjections .symLoad Sol.loadGen O.loadGen c sol acc
  let acc ← addInjections .symGen Sol.loadGen O.loadGen c sol acc
  let acc ← addInjections .asymLoad Sol.loadGen O.loadGen c sol acc
  addInjections .asymGen Sol.loadGen O.loadGen c sol acc

/-- `output_result` of a node, `P/main_core/output.hpp` lines 58-72. -/
noncomputable def nodeResult (A : Attr) (c : Container (Comp K)) (O : Objects) (sol : List (Sol σ)) (x : Comp K) (s : Nat) : Option (NodeOut σ) :=
  match O.node s with
  | none => some (nodeNull x)
  | some m => do
    let inj ← nodeInjections c O sol
    let u ← at2 sol Sol.u m
    some (nodeOutput A x u (inj s))

/-- `output_result` of a branch, `P/main_core/output.hpp` lines 88-97. -/
noncomputable def branchResult (A : Attr) (O : Objects) (sol : List (Sol σ)) (x : Comp K) (s : Nat) : Option (BranchOut σ) :=
  match O.branch s with
  | none => some (branchNull x)
  | some m => do
    let r ← at2 sol Sol.branch m
    some (branchOutput A x r)

/-- `output_result` of a branch with three sides, `P/main_core/output.hpp` lines 107-119. -/
noncomputable def branch3Result (A : Attr) (O : Objects) (sol : List (Sol σ)) (x : Comp K) (s : Nat) : Option (Branch3Out σ) :=
  match O.branch3 s with
  | none => some (branch3Null x)
  | some m => do
    let r0 ← at2 sol Sol.branch (m.1, m.2 0)
    let r1 ← at2 sol Sol.branch (m.1, m.2 1)
    let r2 ← at2 sol Sol.branch (m.1, m.2 2)
    some (branch3Output A x ![r0, r1, r2])

/-- `output_result` of a source, a load or generator or a shunt, `P/main_core/output.hpp` lines 132-178. -/
noncomputable def applResult (member : Sol σ → List (ApplSol σ)) (coup : Nat → Option (Nat × Nat)) (A : Attr) (sol : List (Sol σ)) (x : Comp K)
    (s : Nat) : Option (ApplOut σ) :=
  match coup s with
  | none => some (applNull x)
  | some m => do
    let r ← at2 sol member m
    some (applOutput A x r)

/-- `obj_math_id` of a power sensor, `P/main_core/output.hpp` lines 218-246. -/
def powerSensorMathId (O : Objects) (t : Terminal) (s : Nat) : Option (Nat × Nat) :=
  match t with
  | .branchFrom | .branchTo => O.branch s
  | .source => O.source s
  | .shunt => O.shunt s
  | .load | .generator => O.loadGen s
  | .branch3 m => (O.branch3 s).map fun x => (x.1, x.2 m)
  | .node => O.node s

/-- The calculated power that a power sensor is compared with, `P/main_core/output.hpp` lines 252-279. -/
def powerSensorValue (sol : List (Sol σ)) (t : Terminal) (m : Nat × Nat) : Option (CV σ) :=
  match t with
  | .branchFrom | .branch3 _ => (at2 sol Sol.branch m).map BranchSol.sF
  | .branchTo => (at2 sol Sol.branch m).map BranchSol.sT
  | .source => (at2 sol Sol.source m).map ApplSol.s
  | .shunt => (at2 sol Sol.shunt m).map ApplSol.s
  | .load | .generator => (at2 sol Sol.loadGen m).map ApplSol.s
  | .node => at2 sol Sol.busInjection m

/-- `output_result` of a power sensor, `P/main_core/output.hpp` lines 211-280. -/
noncomputable def powerSensorResult (A : Attr) (O : Objects) (sol : List (Sol σ)) (x : Comp K) (s : Nat) : Option (PowerSensorOut σ) := do
  let t ← terminalOf x.elem.terminal
  match powerSensorMathId O t s with
  | none => some (powerSensorNull x)
  | some m => do
    let v ← powerSensorValue sol t m
    some (powerSensorOutput A x t v)

/-- `output_result` of a voltage sensor, `P/main_core/output.hpp` lines 189-201. -/
noncomputable def voltageSensorResult (A : Attr) (O : Objects) (sol : List (Sol σ)) (x : Comp K) (s : Nat) : Option (VoltageSensorOut σ) :=
  match O.node s with
  | none => some (voltageSensorNull x)
  | some m => do
    let u ← at2 sol Sol.u m
    some (voltageSensorOutput A x u)

/-- `obj_math_id` of a current sensor, `P/main_core/output.hpp` lines 299-316. -/
def currentSensorMathId (O : Objects) (t : Terminal) (s : Nat) : Option (Option (Nat × Nat)) :=
  match t with
  | .branchFrom | .branchTo => some (O.branch s)
  | .branch3 m => some ((O.branch3 s).map fun x => (x.1, x.2 m))
  | _ => none

/-- `get_topology_index<Branch>(components, obj_math_id)`, `P/main_core/output.hpp` line 322 with `P/main_core/container_queries.hpp` lines 121-125: the
place in the solver's result is used as if it were a place in the container. -/
def currentSensorTopologyIndex (c : Container (Comp K)) (m : Nat × Nat) : Option Nat := getSeq isBaseOf .branch c ⟨m.1, m.2⟩

/-- `solver_output[node_math_id.group].u[node_math_id.pos]` for a node's sequence number; a node outside of the calculation has group -1. -/
def nodeVoltage (O : Objects) (sol : List (Sol σ)) (n : Nat) : Option (CV σ) := do
  let m ← O.node n
  at2 sol Sol.u m

/-- The current that a current sensor is compared with, and the voltage it is relative to, `P/main_core/output.hpp` lines 322-346. -/
def currentSensorValue (c : Container (Comp K)) (O : Objects) (sol : List (Sol σ)) (t : Terminal) (m : Nat × Nat) : Option (CV σ × CV σ) := do
  let i ← currentSensorTopologyIndex c m
  let n ← registered .branch c (branchNodes c) i
  match t with
  | .branchTo => do
    let r ← at2 sol Sol.branch m
    let u ← nodeVoltage O sol n.2
    some (r.iT, u)
  | _ => do
    let r ← at2 sol Sol.branch m
    let u ← nodeVoltage O sol n.1
    some (r.iF, u)

/-- The node at the terminal of a current sensor, whose rated voltage the sensor is constructed with, `P/main_core/input.hpp`. -/
def terminalNode (c : Container (Comp K)) (x : Comp K) (t : Terminal) : Option Int := do
  let idx ← c.map x.elem.object
  let vec ← c.vectors[idx.group]?
  let y ← vec[idx.pos]?
  match t with
  | .branchFrom => some y.elem.n1
  | .branchTo => some y.elem.n2
  | .branch3 m => some (node3 y m)
  | _ => none

/-- `output_result` of a current sensor, `P/main_core/output.hpp` lines 291-347. -/
noncomputable def currentSensorResult (A : Attr) (c : Container (Comp K)) (O : Objects) (sol : List (Sol σ)) (x : Comp K) (s : Nat) :
    Option (CurrentSensorOut σ) := do
  let t ← terminalOf x.elem.terminal
  let n ← terminalNode c x t
  let m ← currentSensorMathId O t s
  match m with
  | none => some (currentSensorNull x)
  | some m => do
    let v ← currentSensorValue c O sol t m
    some (currentSensorOutput A x (A.uRated n) v.1 v.2)

/-! ## All records of a type -/

/-- `produce_output<Component>` with `comp_base_sequence<Component>`, `P/main_core/output.hpp` lines 42-53 and `P/main_core/state_queries.hpp` lines
88-164: record `k` is made from component `k` of the type and entry `offset + k` of the vector `seq` of its base class. -/
def produce {β γ : Type} (t : CompType) (c : Container (Comp K)) (seq : Nat → Option β) (f : Comp K → β → Option γ) : List (Option γ) :=
  (List.range (size isBaseOf (.only t) c)).map fun k => do
    let x ← (getItemBySeq isBaseOf (.only t) c k).toOption
    let o ← getStartIdx isBaseOf (baseOf t) (.only t) c
    let s ← seq (o + k)
    f x s

/-- The records of the nodes, `P/main_core/output.hpp` lines 494-510 with `comp_base_sequence_cbegin<Node>`. -/
noncomputable def nodeRecords (A : Attr) (c : Container (Comp K)) (O : Objects) (sol : List (Sol σ)) : List (Option (NodeOut σ)) :=
  produce .node c some (nodeResult A c O sol)

/-- The records of a type of branch. -/
noncomputable def branchRecords (t : CompType) (A : Attr) (c : Container (Comp K)) (O : Objects) (sol : List (Sol σ)) : List (Option (BranchOut σ)) :=
  produce t c some (branchResult A O sol)

/-- The records of the three-winding transformers. -/
noncomputable def branch3Records (A : Attr) (c : Container (Comp K)) (O : Objects) (sol : List (Sol σ)) : List (Option (Branch3Out σ)) :=
  produce .threeWindingTransformer c some (branch3Result A O sol)

/-- The coupling and the results of the appliances of a type. -/
def applMember (t : CompType) : Sol σ → List (ApplSol σ) :=
  match t with | .source => Sol.source | .shunt => Sol.shunt | _ => Sol.loadGen

/-- The coupling of the appliances of a type. -/
def applCoupling (O : Objects) (t : CompType) : Nat → Option (Nat × Nat) :=
  match t with | .source => O.source | .shunt => O.shunt | _ => O.loadGen

/-- The records of a type of appliance. -/
noncomputable def applRecords (t : CompType) (A : Attr) (c : Container (Comp K)) (O : Objects) (sol : List (Sol σ)) : List (Option (ApplOut σ)) :=
  produce t c some (applResult (applMember t) (applCoupling O t) A sol)

/-- The records of a type of power sensor. -/
noncomputable def powerSensorRecords (t : CompType) (A : Attr) (c : Container (Comp K)) (O : Objects) (sol : List (Sol σ)) :
    List (Option (PowerSensorOut σ)) :=
  produce t c (registered .powerSensor c (powerSensorObject c)) (powerSensorResult A O sol)

/-- The records of a type of voltage sensor. -/
noncomputable def voltageSensorRecords (t : CompType) (A : Attr) (c : Container (Comp K)) (O : Objects) (sol : List (Sol σ)) :
    List (Option (VoltageSensorOut σ)) :=
  produce t c (registered .voltageSensor c (voltageSensorNode c)) (voltageSensorResult A O sol)

/-- The records of a type of current sensor. -/
noncomputable def currentSensorRecords (t : CompType) (A : Attr) (c : Container (Comp K)) (O : Objects) (sol : List (Sol σ)) :
    List (Option (CurrentSensorOut σ)) :=
  produce t c (registered .currentSensor c (currentSensorObject c)) (currentSensorResult A c O sol)

end PGM.Output
