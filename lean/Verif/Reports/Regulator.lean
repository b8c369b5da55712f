import Verif.Output.Model
import Verif.TapOpt.Model

/-!
# The records of regulators and of faults in steady-state calculations

Prefix of all paths: `P/` = `/repo/power_grid_model_c/power_grid_model/include/power_grid_model/`. Model of the output of transformer tap regulators, voltage regulators and, in steady-state calculations,
faults: `P/main_core/output.hpp` lines 355-429, with the registration of regulators, `P/main_core/topology.hpp` lines 181-200.

Simplifications. As in `Verif.Output.Model`. The status of a regulator is `Attr.on`. The output of the optimiser is the list of IDs and tap positions that `produce_output` makes,
`P/optimizer/tap_position_optimizer.hpp` lines 1031-1046 (`TapOpt.produceOutput`, where transformers are numbered).
-/

namespace PGM.Reports

open PGM.Container PGM.Input PGM.Update PGM.Topology PGM.PowerFlow PGM.Output

variable {K : Type}

/-- The type of the component with an ID. -/
def typeOf (c : Container (Comp K)) (id : Int) : Option CompType := do
  let idx ← c.map id
  let v ← c.vectors[idx.group]?
  let x ← v[idx.pos]?
  some x.type

/-- `regulated_object_type()`: `math_model_type` of the regulated object, as far as the switch in `P/main_core/topology.hpp` lines 186-195 accepts it. -/
def regulatedClass : CompType → Option Cls
  | .line | .asymLine | .link | .genericBranch | .transformer => some .branch
  | .threeWindingTransformer => some .branch3
  | .symGen | .asymGen | .symLoad | .asymLoad => some .loadGen
  | _ => none

/-- `regulated_object_idx`, `P/main_core/topology.hpp` lines 184-196. -/
def regulatedIdx (c : Container (Comp K)) (x : Comp K) : Option Nat := do
  let t ← typeOf c x.elem.object
  let cls ← regulatedClass t
  seqById cls c x.elem.object

/-- `TransformerTapRegulatorOutput`; `na_IntS` is `none`. -/
structure TapRegOut where
  id : Int
  energized : Bool
  tapPos : Option Int

/-- `output_result` of a transformer tap regulator, `P/main_core/output.hpp` lines 384-397, with `get_output` and `get_null_output`, `P/component/transformer_tap_regulator.hpp` lines 64-73; a
regulator is always energised, `P/component/regulator.hpp` line 29. `taps` is `optimizer_output.transformer_tap_positions`. -/
def tapRegResult (taps : List (Int × Int)) (x : Comp K) (_ : Nat) : Option TapRegOut :=
  match taps.find? fun p => p.1 == x.elem.object with
  | some p => some ⟨x.elem.id, true, some p.2⟩
  | none => some ⟨x.elem.id, false, none⟩

/-- `VoltageRegulatorSolverOutput`, `P/calculation_parameters.hpp`. -/
structure VrSol where
  generator : Int
  generatorOn : Bool
  limit : Int

/-- `VoltageRegulatorOutput`. -/
structure VoltRegOut where
  id : Int
  energized : Bool
  limit : Int

/-- The loop over the entries of an island, `P/main_core/output.hpp` lines 415-419, with `get_output`, `P/component/voltage_regulator.hpp` lines 59-66, and `get_null_output`, lines 55-57. -/
def voltRegFind (A : Attr) (x : Comp K) (l : List VrSol) : VoltRegOut :=
  match l.find? fun v => v.generator == x.elem.object with
  | some v => ⟨x.elem.id, A.on x.elem.id && v.generatorOn, v.limit⟩
  | none => ⟨x.elem.id, false, 0⟩

/-- `output_result` of a voltage regulator, `P/main_core/output.hpp` lines 408-422. `vr` are the entries of the islands. -/
def voltRegResult (A : Attr) (O : Objects) (vr : List (List VrSol)) (x : Comp K) (s : Nat) : Option VoltRegOut :=
  match O.loadGen s with
  | none => some ⟨x.elem.id, false, 0⟩
  | some m => do
    let l ← vr[m.1]?
    some (voltRegFind A x l)

/-- `RegulatorShortCircuitOutput` and `FaultOutput`. -/
structure BaseOut where
  id : Int
  energized : Bool

/-- `get_null_sc_output` of the regulators, and `Fault::get_output`, `P/component/fault.hpp` lines 69-78. -/
def baseNull {β : Type} (x : Comp K) (_ : β) : Option BaseOut := some ⟨x.elem.id, false⟩

/-- The records of the transformer tap regulators. -/
def tapRegRecords (c : Container (Comp K)) (taps : List (Int × Int)) : List (Option TapRegOut) :=
  produce .tapRegulator c (registered .regulator c (regulatedIdx c)) (tapRegResult taps)

/-- The records of the voltage regulators. -/
def voltRegRecords (A : Attr) (c : Container (Comp K)) (O : Objects) (vr : List (List VrSol)) : List (Option VoltRegOut) :=
  produce .voltageRegulator c (registered .regulator c (regulatedIdx c)) (voltRegResult A O vr)

/-- The records of the regulators of a type in a short-circuit calculation. -/
def scRegRecords (t : CompType) (c : Container (Comp K)) : List (Option BaseOut) := produce t c (registered .regulator c (regulatedIdx c)) baseNull

/-- The records of the faults in a steady-state calculation. `fault` is `comp_coup.fault`, whose entries are used by no other calculation. -/
def faultRecords (c : Container (Comp K)) : List (Option BaseOut) := produce .fault c some baseNull

end PGM.Reports
