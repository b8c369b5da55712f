import Verif.Update.Component
import Mathlib.Logic.Function.Basic

/-!
# Model of permanent updates, batch scenario updates and their restoration

`P/main_core/update.hpp`, the update part of `P/main_model_impl.hpp` and the part of `P/job_adapter.hpp` that a batch
calculation uses. The C++ code is generated from the list `AllComponents`; here `T` is the set of component types,
`cls t` the component type with its update rules (`Verif.Update.Component`), and `order` the list of all types in the order
in which `run_functor_with_all_component_types_*` visits them.

Simplifications: the component container is the vector of components of each type and the map from ID to type and
position (its construction is modelled in `Verif.Container`); an index sequence is a list of positions (the group of an
`Idx2D` in the sequence of type `t` is always the group of `t`, it has been checked by `get_component_idx_by_id`);
row based and columnar buffers are not distinguished (a columnar buffer yields update elements with the same content).
Out-of-range reads of a sequence or a component vector are the outcome `undefined`; the C++ asserts guarding them are
absent in release builds.
-/

namespace PGM.Update

variable {T : Type} [DecidableEq T]

/-- Exceptions that an update can raise. -/
inductive UErr where
  | idNotFound (id : Int)
  | idWrongType (id : Int)
  | dataset (msg : String)
  | invalidFault
deriving DecidableEq, Repr

/-- How a call ends. `undefined`: an out-of-range access. -/
inductive Outcome where
  | done
  | raised (e : UErr)
  | undefined
deriving DecidableEq, Repr

/-- `SolversCacheStatus`, `P/calculation_preparation.hpp` lines 35-115. `prev` is the symmetry of the previous
calculation (`none`: `not_set`, `some true`: symmetric). -/
structure Status (T : Type) where
  topo : Bool
  sym : Bool
  asym : Bool
  prev : Option Bool
  changed : T → List Nat

/-- `SolversCacheStatus::update`, `P/calculation_preparation.hpp` lines 96-114. -/
def Status.update (s : Status T) (ch : Change) : Status T :=
  if ch.topo || !s.topo then { s with topo := false, sym := false, asym := false }
  else if ch.param then { s with topo := true, sym := false, asym := false }
  else { s with topo := true }

/-- The update-relevant state of `MainModelImpl`, `P/main_model_impl.hpp` lines 464-476: components, ID map,
`cached_inverse_update_`, `cached_state_changes_` and `solvers_cache_status_`. -/
structure Model (cls : T → CompClass) where
  comps : ∀ t, List (cls t).C
  index : Int → Option (T × Nat)
  pending : ∀ t, List (cls t).U
  cachedChange : Change
  status : Status T

/-- An update dataset with `n` scenarios (`ConstDataset`, `P/auxiliary/dataset.hpp`): which component types it contains
and the update elements of each scenario. -/
structure Dataset (cls : T → CompClass) where
  n : Nat
  has : T → Bool
  elems : ∀ t, Nat → List (cls t).U

variable {cls : T → CompClass}

/-- `get_buffer_span` / `get_columnar_buffer_span` of one scenario, `P/auxiliary/dataset.hpp` lines 461-482: empty for a
component type that the dataset does not contain. -/
def Dataset.span (d : Dataset cls) (t : T) (s : Nat) : List (cls t).U := if d.has t then d.elems t s else []

/-- `get_individual_scenario(s)`, `P/auxiliary/dataset.hpp` lines 499-540: a dataset with the one scenario `s`. -/
def Dataset.single (d : Dataset cls) (s : Nat) : Dataset cls := ⟨1, d.has, fun t _ => d.elems t s⟩

/-- `is_nan(ID)`. -/
def idNa (id : Int) : Bool := id == naIntID

/-- `UpdateCompProperties`, `P/main_core/update.hpp` lines 58-67 (without `dense` and `is_columnar`, which are not used in
decisions). `ps` is `elements_ps_in_update`, `none` for `invalid_index`. -/
structure UpdProps where
  hasAny : Bool
  allNa : Bool
  partNa : Bool
  uniform : Bool
  match_ : Bool
  ps : Option Nat
  base : Nat

/-- `qualify_for_optional_id`, `P/main_core/update.hpp` lines 70-72. -/
def UpdProps.qualify (p : UpdProps) : Bool := p.match_ && p.allNa && p.uniform && (p.ps == some p.base)

/-- `provided_ids_valid`, lines 73-75. -/
def UpdProps.provided (p : UpdProps) : Bool := !p.hasAny || (p.match_ && !(p.allNa || p.partNa))

/-- `is_independent`, line 77. -/
def UpdProps.independent (p : UpdProps) : Bool := p.qualify || p.provided

/-- `get_n_elements`, lines 78-82; `none` is `na_Idx` (a negative number). -/
def UpdProps.nElements (p : UpdProps) : Option Nat := if p.qualify then p.ps else none

/-- `is_uniform`, `P/auxiliary/dataset.hpp` lines 326-343 (a dense buffer has equally many elements in every scenario). -/
def Dataset.uniform (d : Dataset cls) (t : T) : Bool :=
  !d.has t || (List.range d.n).all (fun s => (d.elems t s).length == (d.elems t 0).length)

/-- `uniform_elements_per_scenario`, `P/auxiliary/dataset.hpp` lines 345-360. -/
def Dataset.perScenario (d : Dataset cls) (t : T) : Nat := if d.has t then (d.elems t 0).length else 0

/-- `total_elements > 0` for a component that is present, `P/main_core/update.hpp` lines 122-123. -/
def Dataset.hasAny (d : Dataset cls) (t : T) : Bool :=
  d.has t && (List.range d.n).any (fun s => !(d.elems t s).isEmpty)

/-- `get_all_ids_na`, `P/main_core/update.hpp` lines 85-89. -/
def allIdsNa (d : Dataset cls) (t : T) : Bool :=
  (List.range d.n).all (fun s => (d.elems t s).all (fun u => idNa ((cls t).uid u)))

/-- `get_any_ids_na`, lines 91-95. -/
def anyIdsNa (d : Dataset cls) (t : T) : Bool :=
  (List.range d.n).any (fun s => (d.elems t s).any (fun u => idNa ((cls t).uid u)))

/-- `get_update_ids_match`, lines 97-113 (`std::ranges::equal` also compares the lengths). -/
def idsMatch (d : Dataset cls) (t : T) : Bool :=
  (List.range d.n).all (fun s => (d.elems t s).map (cls t).uid == (d.elems t 0).map (cls t).uid)

/-- `check_component_independence`, lines 115-150. -/
def checkIndependence (d : Dataset cls) (t : T) (nComponent : Nat) : UpdProps :=
  if d.hasAny t then
    { hasAny := true
      allNa := allIdsNa d t
      partNa := !allIdsNa d t && anyIdsNa d t
      uniform := d.uniform t
      match_ := d.uniform t && idsMatch d t
      ps := if d.uniform t then some (d.perScenario t) else none
      base := nComponent }
  else
    { hasAny := false, allNa := true, partNa := false, uniform := d.uniform t, match_ := true
      ps := if d.uniform t then some (d.perScenario t) else none
      base := nComponent }

/-- `validate_update_data_independence`, lines 152-170. A negative `elements_ps` is `none`. -/
def validate (p : UpdProps) : Except UErr Unit :=
  if !p.hasAny then .ok ()
  else
    if (match p.nElements with | some k => decide (p.base < k) | none => false) then
      .error (.dataset "Update data has more elements per scenario than input data")
    else if p.partNa then .error (.dataset "IDs contain both numbers and NANs")
    else if p.allNa && !(p.nElements == some p.base) then
      .error (.dataset "Update data without IDs has a different number of elements per scenario")
    else .ok ()

/-- `get_component_idx_by_id<Component>`, `P/main_core/container_queries.hpp`, on a concrete component type. -/
def idxById (index : Int → Option (T × Nat)) (t : T) (id : Int) : Except UErr Nat :=
  match index id with
  | none => .error (.idNotFound id)
  | some (t', j) => if t' = t then .ok j else .error (.idWrongType id)

/-- `get_component_sequence_impl`, `P/main_core/update.hpp` lines 185-204. -/
def sequence (index : Int → Option (T × Nat)) (t : T) (us : List (cls t).U) (nElements : Option Nat) :
    Except UErr (List Nat) :=
  match nElements with
  | none => us.mapM (fun u => idxById index t ((cls t).uid u))
  | some _ => .ok (List.range us.length)

/-- The functor of `get_all_sequence_idx_map`, lines 234-255, for one type. -/
def sequenceOf (index : Int → Option (T × Nat)) (d : Dataset cls) (s : Nat) (p : UpdProps) (cached : Bool) (t : T) :
    Except UErr (List Nat) :=
  if (cached != p.independent) && d.has t then do
    validate p
    sequence index t (d.span t s) p.nElements
  else .ok []

/-- One iteration of the loop over all component types in `get_all_sequence_idx_map`. -/
def sequenceStep (index : Int → Option (T × Nat)) (d : Dataset cls) (s : Nat) (p : T → UpdProps) (cached : Bool)
    (acc : T → List Nat) (t : T) : Except UErr (T → List Nat) :=
  match sequenceOf index d s (p t) cached t with
  | .error e => .error e
  | .ok l => .ok (Function.update acc t l)

/-- `get_all_sequence_idx_map`, lines 234-255. -/
def sequenceMap (order : List T) (index : Int → Option (T × Nat)) (d : Dataset cls) (s : Nat) (p : T → UpdProps)
    (cached : Bool) : Except UErr (T → List Nat) :=
  order.foldlM (sequenceStep index d s p cached) (fun _ => [])

/-- `update_component` with its sequence, lines 261-284: components after the loop, indices of the changed components,
accumulated change and outcome. An exception of `comp.update` ends the loop; the component keeps what it was assigned. -/
def applySeq (cl : CompClass) : List cl.C → List cl.U → List Nat → List cl.C × List Nat × Change × Outcome
  | cs, [], _ => (cs, [], ⟨false, false⟩, .done)
  | cs, _ :: _, [] => (cs, [], ⟨false, false⟩, .undefined)
  | cs, u :: us, i :: is =>
    match cs[i]? with
    | none => (cs, [], ⟨false, false⟩, .undefined)
    | some c =>
      let r := cl.update c u
      let cs' := cs.set i r.1
      if r.2.2 then (cs', [], ⟨false, false⟩, .raised .invalidFault)
      else
        let rest := applySeq cl cs' us is
        (rest.1, (if r.2.1.param || r.2.1.topo then [i] else []) ++ rest.2.1, r.2.1.or rest.2.2.1, rest.2.2.2)

/-- `update_inverse`, lines 299-312; `none` is an out-of-range read. -/
def inverses (cl : CompClass) (cs : List cl.C) : List cl.U → List Nat → Option (List cl.U)
  | [], _ => some []
  | _ :: _, [] => none
  | u :: us, i :: is => do
    let c ← cs[i]?
    let rest ← inverses cl cs us is
    pure (cl.inverse c u :: rest)

/-- The second half of `MainModelImpl::update_component`, `P/main_model_impl.hpp` lines 151-160. -/
def applyType (cached : Bool) (t : T) (us : List (cls t).U) (seq : List Nat) (m : Model cls) : Model cls × Outcome :=
  let r := applySeq (cls t) (m.comps t) us seq
  let m' : Model cls := { m with
    comps := Function.update m.comps t r.1
    status := { m.status with changed := Function.update m.status.changed t (m.status.changed t ++ r.2.1) } }
  match r.2.2.2 with
  | .done =>
    ({ m' with
        status := m'.status.update r.2.2.1
        cachedChange := if cached then m.cachedChange.or r.2.2.1 else m.cachedChange }, .done)
  | o => (m', o)

/-- `MainModelImpl::update_component<CompType, CacheType>`, `P/main_model_impl.hpp` lines 138-161. -/
def updateType (cached : Bool) (t : T) (us : List (cls t).U) (seq : List Nat) (m : Model cls) : Model cls × Outcome :=
  if cached then
    match inverses (cls t) (m.comps t) us seq with
    | none => (m, .undefined)
    | some inv => applyType true t us seq { m with pending := Function.update m.pending t (m.pending t ++ inv) }
  else applyType false t us seq m

/-- `run_functor_with_all_component_types_return_void`: a loop over the types that is left by an exception. -/
def forTypes (f : T → Model cls → Model cls × Outcome) : List T → Model cls → Model cls × Outcome
  | [], m => (m, .done)
  | t :: ts, m =>
    match f t m with
    | (m', .done) => forTypes f ts m'
    | r => r

/-- `update_components<CacheType>(update_data, pos, sequence_idx_map)`, `P/main_model_impl.hpp` lines 180-188. -/
def updateComponents (order : List T) (cached : Bool) (d : Dataset cls) (s : Nat) (seq : T → List Nat) (m : Model cls) :
    Model cls × Outcome :=
  forTypes (fun t => updateType cached t (d.span t s) (seq t)) order m

/-- The properties of all types: `check_update_independence`, `P/main_core/update.hpp` lines 172-181. -/
def allProps (d : Dataset cls) (m : Model cls) (t : T) : UpdProps := checkIndependence d t (m.comps t).length

/-- A permanent update, `MainModel::update_components`, `P/main_model.hpp` lines 87-89 (first scenario of the dataset)
with `MainModelImpl::update_components<permanent_update_t>`, `P/main_model_impl.hpp` lines 191-198. -/
def permanentUpdate (order : List T) (d : Dataset cls) (m : Model cls) : Model cls × Outcome :=
  let d1 := d.single 0
  match sequenceMap order m.index d1 0 (allProps d1 m) false with
  | .error e => (m, .raised e)
  | .ok seq => updateComponents order false d1 0 seq m

/-- `restore_component<CompType>`, `P/main_model_impl.hpp` lines 240-250. -/
def restoreType (t : T) (seq : List Nat) (m : Model cls) : Model cls × Outcome :=
  if (m.pending t).isEmpty then (m, .done)
  else
    match updateType false t (m.pending t) seq m with
    | (m', .done) => ({ m' with pending := Function.update m'.pending t [] }, .done)
    | r => r

/-- `restore_components`, `P/main_model_impl.hpp` lines 254-261. -/
def restoreComponents (order : List T) (seq : T → List Nat) (m : Model cls) : Model cls × Outcome :=
  match forTypes (fun t => restoreType t (seq t)) order m with
  | (m', .done) => ({ m' with status := m'.status.update m'.cachedChange, cachedChange := ⟨false, false⟩ }, .done)
  | r => r

/-- What a batch calculation computes once (`prepare_job_dispatch_impl`, `P/job_adapter.hpp` lines 113-125):
`update_independence_` and `all_scenarios_sequence_`. -/
structure Plan (cls : T → CompClass) where
  d : Dataset cls
  props : T → UpdProps
  all : T → List Nat

/-- `prepare_job_dispatch_impl`, `P/job_adapter.hpp` lines 113-125. -/
def prepare (order : List T) (d : Dataset cls) (m : Model cls) : Except UErr (Plan cls) :=
  match sequenceMap order m.index d 0 (allProps d m) false with
  | .error e => .error e
  | .ok all => .ok ⟨d, allProps d m, all⟩

/-- The adapter of one worker: its copy of the model and `current_scenario_sequence_cache_`. -/
structure Job (cls : T → CompClass) where
  model : Model cls
  cur : T → List Nat

/-- `get_current_scenario_sequence_view_`, `P/job_adapter.hpp` lines 141-149. -/
def Plan.view (p : Plan cls) (cur : T → List Nat) (t : T) : List Nat :=
  if (p.props t).independent then p.all t else cur t

/-- `setup_impl`, `P/job_adapter.hpp` lines 127-134. -/
def setup (order : List T) (p : Plan cls) (s : Nat) (j : Job cls) : Job cls × Outcome :=
  match sequenceMap order j.model.index p.d s p.props true with
  | .error e => (j, .raised e)
  | .ok cur =>
    let r := updateComponents order true p.d s (p.view cur) j.model
    (⟨r.1, cur⟩, r.2)

/-- `winddown_impl`, `P/job_adapter.hpp` lines 136-139. -/
def winddown (order : List T) (p : Plan cls) (j : Job cls) : Job cls × Outcome :=
  match restoreComponents order (p.view j.cur) j.model with
  | (m, .done) => (⟨m, fun _ => []⟩, .done)
  | (m, o) => (⟨m, j.cur⟩, o)

end PGM.Update
