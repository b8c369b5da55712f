import Verif.Update.Model

/-!
# Model of the solver caches

`P/calculation_preparation.hpp` (`prepare_solvers`, `rebuild_topology`, `reset_solvers`), `P/main_core/y_bus.hpp`
(`prepare_y_bus`, `get_math_param`, `get_math_param_increment`) and `P/main_core/math_state.hpp`, on top of the update
operations of `Verif.Update.Model`, which maintain the validity flags and the list of changed components.

Simplifications. The topology that is built from the components and the functions that compute parameters of components are
parameters (`Env`): the first is any function of the connection statuses of branches, three-winding transformers and
sources and of the (unchangeable) rest of the input, the second any functions of the data that `calc_param`/`math_param`
read. A Y bus is represented by its cached parameters `math_model_param_`; that its admittances are the sums prescribed by
these parameters, also after an incremental update, is C14/C15. The vector of Y buses is its length together with the
parameters of all places; places are named (math model, kind, position). The constructors of solvers and Y buses do not
throw.
-/

namespace PGM.Cache

open PGM.Update

variable {K : Type} [Field K] [DecidableEq K]

/-- The connection statuses that `construct_components_connections` (`P/main_core/topology.hpp`) reads: those of branches,
three-winding transformers and sources. -/
def topoView (K : Type) [Field K] [DecidableEq K] : (t : CompType) → (classOf K t).C → List Bool
  | .line | .asymLine | .link | .genericBranch => fun (c : Branch) => [c.fromStatus, c.toStatus]
  | .transformer => fun (c : Transformer) => [c.fromStatus, c.toStatus]
  | .threeWindingTransformer => fun (c : Transformer3) => [c.status1, c.status2, c.status3]
  | .source => fun (c : Source K) => [c.status]
  | .node | .shunt | .symGen | .asymGen | .symLoad | .asymLoad | .symPowerSensor | .asymPowerSensor | .symVoltageSensor
  | .asymVoltageSensor | .symCurrentSensor | .asymCurrentSensor | .fault | .tapRegulator | .voltageRegulator => fun _ => []

/-- What `Source::math_param` reads (`P/component/source.hpp` lines 40-48): not the status and not the reference voltage. -/
structure SourceImpedance (K : Type) where
  id : Int
  sk : Option K
  rxRatio : Option K
  z01Ratio : Option K

/-- The data that the parameters of a component in the mathematical model depend on. The remaining input data of a component
cannot change; a function of these data can depend on them through the ID. -/
def ParamData (K : Type) : CompType → Type
  | .line | .asymLine | .link | .genericBranch => Branch
  | .transformer => Transformer
  | .threeWindingTransformer => Transformer3
  | .shunt => Shunt K
  | .source => SourceImpedance K
  | .node | .symGen | .asymGen | .symLoad | .asymLoad | .symPowerSensor | .asymPowerSensor | .symVoltageSensor
  | .asymVoltageSensor | .symCurrentSensor | .asymCurrentSensor | .fault | .tapRegulator | .voltageRegulator => Unit

/-- `calc_param` of `P/component/branch.hpp`, branch3.hpp and shunt.hpp and `math_param` of source.hpp read these data. -/
def paramData (K : Type) [Field K] [DecidableEq K] : (t : CompType) → (classOf K t).C → ParamData K t
  | .line | .asymLine | .link | .genericBranch => fun (c : Branch) => c
  | .transformer => fun (c : Transformer) => c
  | .threeWindingTransformer => fun (c : Transformer3) => c
  | .shunt => fun (c : Shunt K) => c
  | .source => fun (c : Source K) => ⟨c.fixed.id, c.sk, c.rxRatio, c.z01Ratio⟩
  | .node | .symGen | .asymGen | .symLoad | .asymLoad | .symPowerSensor | .asymPowerSensor | .symVoltageSensor
  | .asymVoltageSensor | .symCurrentSensor | .asymCurrentSensor | .fault | .tapRegulator | .voltageRegulator => fun _ => ()

/-- A place in the parameters of the math models: group, kind (branch, shunt, source) and position. -/
inductive Kind | branch | shunt | source
deriving DecidableEq

structure Slot where
  group : Nat
  kind : Kind
  pos : Nat
deriving DecidableEq

/-- The rest of the program. `Top` is a built topology (`math_topology`, `topo_comp_coup` and `reduced_topology`), `n` its
number of math models, `slots` the places of the parameters of component `k` of type `t` (none if it is isolated, three for
a three-winding transformer), `param sym t` the parameters. Building the topology can throw (`none`). -/
structure Env (K : Type) [Field K] [DecidableEq K] where
  Top : Type
  P : Type
  build : (CompType → List (List Bool)) → Option Top
  n : Top → Nat
  slots : Top → CompType → Nat → List Slot
  param : Bool → (t : CompType) → ParamData K t → List P

variable (E : Env K)

/-- A vector of Y buses: its length and the parameters at each place. -/
structure YBusVec where
  n : Nat
  param : Slot → Option E.P

/-- `MainModelState` and `MathState`: the model, the built topology, the Y buses and the number of solvers per symmetry
(`true`: symmetric). -/
structure State where
  model : Model (classOf K)
  top : Option E.Top
  ybus : Bool → YBusVec E
  solvers : Bool → Nat

variable {E}

/-- What the topology is built from. -/
def connections (comps : ∀ t, List (classOf K t).C) : CompType → List (List Bool) := fun t => (comps t).map (topoView K t)

/-- Assign the parameters of one component to its places: `add_to_math_model_params`, `P/main_core/y_bus.hpp` lines 27-113
(the full and the incremental version write the same values, the latter through `update_admittance_increment`,
`P/math_solver/y_bus.hpp` lines 379-391). -/
def writeComponent (E : Env K) (top : E.Top) (sym : Bool) (comps : ∀ t, List (classOf K t).C) (y : Slot → Option E.P)
    (tk : CompType × Nat) : Slot → Option E.P :=
  match (comps tk.1)[tk.2]? with
  | none => y
  | some c =>
    ((E.slots top tk.1 tk.2).zip (E.param sym tk.1 (paramData K tk.1 c))).foldl
      (fun y sp => Function.update y sp.1 (some sp.2)) y

/-- The component types that have parameters: all branches, three-winding transformers, shunts and sources, in the order of
`get_math_param`, `P/main_core/y_bus.hpp` lines 194-209. -/
def paramTypes : List CompType :=
  [.line, .asymLine, .link, .genericBranch, .transformer, .threeWindingTransformer, .shunt, .source]

/-- `get_math_param`, `P/main_core/y_bus.hpp` lines 186-212. -/
def getMathParam (E : Env K) (top : E.Top) (sym : Bool) (comps : ∀ t, List (classOf K t).C) : Slot → Option E.P :=
  (paramTypes.flatMap (fun t => (List.range (comps t).length).map (fun k => (t, k)))).foldl
    (writeComponent E top sym comps) (fun _ => none)

/-- `get_math_param_increment`, lines 167-184, and the assignments of `update_admittance_increment`: all component types
are visited, for types without parameters `add_to_increment` (lines 134-139) does nothing. -/
def applyIncrement (E : Env K) (top : E.Top) (sym : Bool) (comps : ∀ t, List (classOf K t).C)
    (changed : CompType → List Nat) (y : Slot → Option E.P) : Slot → Option E.P :=
  (allTypes.flatMap (fun t => if t ∈ paramTypes then (changed t).map (fun k => (t, k)) else [])).foldl
    (writeComponent E top sym comps) y

/-- The validity flag of one symmetry. -/
def valid (s : Status CompType) (sym : Bool) : Bool := if sym then s.sym else s.asym

/-- `set_parameter_status<sym>`, `P/calculation_preparation.hpp` lines 69-75. -/
def setValid (s : Status CompType) (sym v : Bool) : Status CompType :=
  if sym then { s with sym := v } else { s with asym := v }

/-- `reset_solvers` and `rebuild_topology`, `P/calculation_preparation.hpp` lines 118-156; `false` if building the topology
throws. -/
def rebuild (st : State E) : State E × Bool :=
  let cleared : State E :=
    { st with
        model := { st.model with status := { st.model.status with topo := false, sym := false, asym := false } }
        top := none
        ybus := fun _ => ⟨0, fun _ => none⟩
        solvers := fun _ => 0 }
  match E.build (connections st.model.comps) with
  | none => (cleared, false)
  | some t =>
    ({ cleared with
        model := { st.model with status := { st.model.status with topo := true, sym := false, asym := false } }
        top := some t }, true)

/-- `prepare_y_bus`, `P/main_core/y_bus.hpp` lines 142-165. -/
def prepareYBus (st : State E) (top : E.Top) (sym : Bool) : State E :=
  if (st.ybus sym).n = 0 then
    { st with ybus := Function.update st.ybus sym ⟨E.n top, getMathParam E top sym st.model.comps⟩ }
  else st

/-- The middle part of `prepare_solvers`, `P/calculation_preparation.hpp` lines 248-271: build the solvers, or refresh the
parameters incrementally or in full. -/
def refresh (st : State E) (top : E.Top) (sym : Bool) : State E :=
  if E.n top ≠ st.solvers sym then { st with solvers := Function.update st.solvers sym (E.n top) }
  else if !valid st.model.status sym then
    let y := st.ybus sym
    if st.model.status.prev = some sym then
      { st with
          ybus := Function.update st.ybus sym
            ⟨y.n, applyIncrement E top sym st.model.comps st.model.status.changed y.param⟩ }
    else
      { st with ybus := Function.update st.ybus sym ⟨y.n, getMathParam E top sym st.model.comps⟩ }
  else st

/-- The end of `prepare_solvers`, lines 272-275. -/
def conclude (st : State E) (sym : Bool) : State E :=
  { st with
      model := { st.model with
        status := { setValid st.model.status sym true with prev := some sym, changed := fun _ => [] } } }

/-- `prepare_solvers<sym>`, `P/calculation_preparation.hpp` lines 239-279. `none` if building the topology throws, or if
there is no built topology although it is marked as valid (`get_n_math_solvers` reads it); otherwise the topology that the
calculation uses. The final `check_state_validity` only reads the components. -/
def prepareSolvers (st : State E) (sym : Bool) : State E × Option E.Top :=
  let r := if st.model.status.topo then (st, true) else rebuild st
  if !r.2 then (r.1, none)
  else
    match r.1.top with
    | none => (r.1, none)
    | some top =>
      (conclude (refresh (prepareYBus r.1 top sym) top sym) sym, some top)

/-- What a calculation works with: the topology, the number of Y buses and solvers, the parameters of the Y buses, and the
components. `calculate_`, `P/main_model_impl.hpp` lines 288-315. -/
def solverInput (st : State E) (sym : Bool) (top : E.Top) :
    E.Top × Nat × Nat × (Slot → Option E.P) × (∀ t, List (classOf K t).C) :=
  (top, (st.ybus sym).n, st.solvers sym, (st.ybus sym).param, st.model.comps)

/-- One calculation of symmetry `sym`; `solve` is everything after the preparation. -/
def calculate {ο : Type}
    (solve : Bool → E.Top × Nat × Nat × (Slot → Option E.P) × (∀ t, List (classOf K t).C) → ο) (sym : Bool)
    (st : State E) : State E × Option ο :=
  match prepareSolvers st sym with
  | (st', none) => (st', none)
  | (st', some top) => (st', some (solve sym (solverInput st' sym top)))

/-- A newly constructed model with given components (`MainModelImpl` constructor, `P/main_model_impl.hpp` lines 90-104, and
the default member initialisers). -/
def newModel (E : Env K) (comps : ∀ t, List (classOf K t).C) (index : Int → Option (CompType × Nat)) : State E where
  model := ⟨comps, index, fun _ => [], ⟨false, false⟩, ⟨false, false, false, none, fun _ => []⟩⟩
  top := none
  ybus := fun _ => ⟨0, fun _ => none⟩
  solvers := fun _ => 0

/-- The operations on a model. -/
inductive Op (K : Type) [Field K] [DecidableEq K] where
  /-- permanent update -/
  | update (d : Dataset (classOf K))
  /-- apply scenario `s` of a batch -/
  | setup (p : Plan (classOf K)) (s : Nat)
  /-- restore after a scenario -/
  | winddown (p : Plan (classOf K))
  /-- updates of single component types, as the tap changer optimisation makes them -/
  | component (cached : Bool) (t : CompType) (us : List (classOf K t).U) (seq : List Nat)
  /-- a calculation -/
  | calculate (sym : Bool)

/-- Run an operation on the model of a worker with its sequence cache; exceptions are caught by the caller and the model is
used further. `none`: the operation ran into an out-of-range access. -/
def step (E : Env K) (s : State E × (CompType → List Nat)) : Op K → Option (State E × (CompType → List Nat))
  | .update d =>
    let r := permanentUpdate allTypes d s.1.model
    if r.2 = .undefined then none else some ({ s.1 with model := r.1 }, s.2)
  | .setup p k =>
    let r := setup allTypes p k ⟨s.1.model, s.2⟩
    if r.2 = .undefined then none else some ({ s.1 with model := r.1.model }, r.1.cur)
  | .winddown p =>
    let r := winddown allTypes p ⟨s.1.model, s.2⟩
    if r.2 = .undefined then none else some ({ s.1 with model := r.1.model }, r.1.cur)
  | .component cached t us seq =>
    let r := updateType cached t us seq s.1.model
    if r.2 = .undefined then none else some ({ s.1 with model := r.1 }, s.2)
  | .calculate sym => some ((prepareSolvers s.1 sym).1, s.2)

/-- A history of operations. -/
def run (E : Env K) : State E × (CompType → List Nat) → List (Op K) → Option (State E × (CompType → List Nat))
  | s, [] => some s
  | s, op :: ops => (step E s op).bind (fun s' => run E s' ops)

end PGM.Cache
