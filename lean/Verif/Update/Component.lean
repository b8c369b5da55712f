import Mathlib.Algebra.Field.Basic

/-!
# Model of the update and inverse functions of the components

`P/component/*.hpp` (`P` = `power_grid_model_c/power_grid_model/include/power_grid_model`).

Conventions. A `double` that may be NaN is `Option K` over a field `K` (exact arithmetic, infinities not modelled).
`IntS` and `ID` values are raw integers, with the NaN values `naIntS = -128` and `naIntID = -2^31`; enumerations with
underlying type `IntS` are raw integers too. A `RealValue<sym>` has one entry, a `RealValue<asym>` three: both are
`Fin n → Option K`, since the asymmetric overloads of `update_real_value` and `set_if_not_nan` work entry by entry.
Fields that no update can change are kept in a record `fixed`; only those used by `update`/`inverse` are listed. The
debug-only `assert`s on IDs are not modelled.
-/

namespace PGM.Update

/-- `na_IntS`, `P/common/common.hpp`. -/
def naIntS : Int := -128
/-- `na_IntID`, `P/common/common.hpp`. -/
def naIntID : Int := -2147483648

/-- `UpdateChange`, `P/component/component.hpp` lines 16-18: which caches an update invalidates. -/
structure Change where
  topo : Bool
  param : Bool
deriving DecidableEq, Repr

/-- `operator||`, `P/component/component.hpp` lines 20-22. -/
def Change.or (a b : Change) : Change := ⟨a.topo || b.topo, a.param || b.param⟩

/-- `static_cast<bool>(IntS)`. -/
def toBool (x : Int) : Bool := x ≠ 0
/-- `status_to_int`, `P/component/base.hpp` line 15. -/
def statusToInt (b : Bool) : Int := if b then 1 else 0

variable {K : Type} [Field K] [DecidableEq K]

/-- `update_real_value` for one entry, `P/common/three_phase_tensor.hpp` lines 420-432. -/
def updateReal (new cur : Option K) (scalar : K) : Option K :=
  match new with
  | none => cur
  | some v => some (scalar * v)

/-- `update_real_value<sym>` on all entries, same lines. -/
def updateRealV {n : Nat} (new cur : Fin n → Option K) (scalar : K) : Fin n → Option K :=
  fun i => updateReal (new i) (cur i) scalar

/-- `set_if_not_nan` for a real number, lines 437-441; the value may itself be NaN. -/
def setIfNotNanR (target value : Option K) : Option K :=
  match target with
  | none => none
  | some _ => value

/-- `set_if_not_nan` entry by entry, lines 442-446. -/
def setIfNotNanV {n : Nat} (target value : Fin n → Option K) : Fin n → Option K :=
  fun i => setIfNotNanR (target i) (value i)

/-- `set_if_not_nan` for `IntS` and enumerations with that underlying type, lines 437-441 with 371-376. -/
def setIfNotNanI (target value : Int) : Int := if target = naIntS then target else value
/-- `set_if_not_nan` for `ID`, lines 437-441 with 370. -/
def setIfNotNanID (target value : Int) : Int := if target = naIntID then target else value

/-- Multiply an entry that may be NaN. -/
def scale (s : K) (x : Option K) : Option K := x.map (fun v => v * s)

/-- `set_status` of one side, as in `P/component/branch.hpp` lines 162-175: new value and whether it changed. -/
def setSide (cur : Bool) (new : Int) : Bool × Bool :=
  if new ≠ naIntS then (toBool new, cur != toBool new) else (cur, false)

/-! ### Branch: line, asym_line, link, generic_branch -/

structure BranchFixed where
  id : Int
deriving DecidableEq

structure Branch where
  fixed : BranchFixed
  fromStatus : Bool
  toStatus : Bool

structure BranchUpdate where
  id : Int
  fromStatus : Int
  toStatus : Int

/-- `Branch::set_status`, `P/component/branch.hpp` lines 162-175. -/
def Branch.setStatus (c : Branch) (f t : Int) : Branch × Bool :=
  let a := setSide c.fromStatus f
  let b := setSide c.toStatus t
  ({ c with fromStatus := a.1, toStatus := b.1 }, a.2 || b.2)

/-- `Branch::update`, lines 178-183. -/
def Branch.update (c : Branch) (u : BranchUpdate) : Branch × Change :=
  let r := c.setStatus u.fromStatus u.toStatus
  (r.1, ⟨r.2, r.2⟩)

/-- `Branch::inverse`, lines 185-192. -/
def Branch.inverse (c : Branch) (u : BranchUpdate) : BranchUpdate :=
  { u with fromStatus := setIfNotNanI u.fromStatus (statusToInt c.fromStatus),
           toStatus := setIfNotNanI u.toStatus (statusToInt c.toStatus) }

/-! ### Transformer -/

structure TransformerFixed where
  id : Int
  tapMin : Int
  tapMax : Int
deriving DecidableEq

structure Transformer where
  fixed : TransformerFixed
  fromStatus : Bool
  toStatus : Bool
  tapPos : Int

structure TransformerUpdate where
  id : Int
  fromStatus : Int
  toStatus : Int
  tapPos : Int

/-- `tap_limit`, `P/component/transformer.hpp` lines 174-178 and `P/component/three_winding_transformer.hpp`
lines 218-222. -/
def tapLimit (tapMin tapMax new : Int) : Int :=
  max (min new (max tapMax tapMin)) (min tapMax tapMin)

/-- `set_tap`, `P/component/transformer.hpp` lines 108-114 and three_winding_transformer.hpp lines 142-148: the new tap
position and the returned flag. -/
def setTap (tapMin tapMax cur new : Int) : Int × Bool :=
  if new = naIntS ∨ new = cur then (cur, false) else (tapLimit tapMin tapMax new, true)

/-- `Transformer::update`, `P/component/transformer.hpp` lines 117-122. -/
def Transformer.update (c : Transformer) (u : TransformerUpdate) : Transformer × Change :=
  let a := setSide c.fromStatus u.fromStatus
  let b := setSide c.toStatus u.toStatus
  let topo := a.2 || b.2
  let t := setTap c.fixed.tapMin c.fixed.tapMax c.tapPos u.tapPos
  ({ c with fromStatus := a.1, toStatus := b.1, tapPos := t.1 }, ⟨topo, t.2 || topo⟩)

/-- `Transformer::inverse`, lines 124-131. -/
def Transformer.inverse (c : Transformer) (u : TransformerUpdate) : TransformerUpdate :=
  { u with fromStatus := setIfNotNanI u.fromStatus (statusToInt c.fromStatus),
           toStatus := setIfNotNanI u.toStatus (statusToInt c.toStatus),
           tapPos := setIfNotNanI u.tapPos c.tapPos }

/-! ### Three-winding transformer -/

structure Transformer3 where
  fixed : TransformerFixed
  status1 : Bool
  status2 : Bool
  status3 : Bool
  tapPos : Int

structure Transformer3Update where
  id : Int
  status1 : Int
  status2 : Int
  status3 : Int
  tapPos : Int

/-- `ThreeWindingTransformer::update`, `P/component/three_winding_transformer.hpp` lines 150-155, with
`Branch3::set_status`, `P/component/branch3.hpp` lines 200-218. -/
def Transformer3.update (c : Transformer3) (u : Transformer3Update) : Transformer3 × Change :=
  let a := setSide c.status1 u.status1
  let b := setSide c.status2 u.status2
  let d := setSide c.status3 u.status3
  let topo := a.2 || b.2 || d.2
  let t := setTap c.fixed.tapMin c.fixed.tapMax c.tapPos u.tapPos
  ({ c with status1 := a.1, status2 := b.1, status3 := d.1, tapPos := t.1 }, ⟨topo, t.2 || topo⟩)

/-- `ThreeWindingTransformer::inverse`, lines 157-164, with `Branch3::inverse`, branch3.hpp lines 228-236. -/
def Transformer3.inverse (c : Transformer3) (u : Transformer3Update) : Transformer3Update :=
  { u with status1 := setIfNotNanI u.status1 (statusToInt c.status1),
           status2 := setIfNotNanI u.status2 (statusToInt c.status2),
           status3 := setIfNotNanI u.status3 (statusToInt c.status3),
           tapPos := setIfNotNanI u.tapPos c.tapPos }

/-! ### Appliances -/

/-- `Appliance::set_status`, `P/component/appliance.hpp` lines 43-52, and `Fault::set_status`,
`P/component/fault.hpp` lines 149-158. -/
def setStatus (cur : Bool) (new : Int) : Bool × Bool :=
  if new = naIntS then (cur, false)
  else if toBool new = cur then (cur, false)
  else (toBool new, true)

structure ShuntFixed where
  id : Int
deriving DecidableEq

structure Shunt (K : Type) where
  fixed : ShuntFixed
  status : Bool
  g1 : Option K
  b1 : Option K
  g0 : Option K
  b0 : Option K

structure ShuntUpdate (K : Type) where
  id : Int
  status : Int
  g1 : Option K
  b1 : Option K
  g0 : Option K
  b0 : Option K

/-- `Shunt::update_param`, `P/component/shunt.hpp` lines 100-107. The derived admittances `y1_`, `y0_` (lines 92-95) are
recomputed from the four values whenever one changes and are not kept separately. -/
def updateParam (value target : Option K) : Option K × Bool :=
  if value = none ∨ value = target then (target, false) else (value, true)

/-- `Shunt::update`, lines 53-60 with `update_params`, lines 84-98. -/
def Shunt.update (c : Shunt K) (u : ShuntUpdate K) : Shunt K × Change :=
  let s := setStatus c.status u.status
  let r1 := updateParam u.g1 c.g1
  let r2 := updateParam u.b1 c.b1
  let r3 := updateParam u.g0 c.g0
  let r4 := updateParam u.b0 c.b0
  let changed := r4.2 || r3.2 || r2.2 || r1.2
  ({ c with status := s.1, g1 := r1.1, b1 := r2.1, g0 := r3.1, b0 := r4.1 }, ⟨false, changed || s.2⟩)

/-- `Shunt::inverse`, lines 62-72. -/
def Shunt.inverse (c : Shunt K) (u : ShuntUpdate K) : ShuntUpdate K :=
  { u with status := setIfNotNanI u.status (statusToInt c.status),
           g1 := setIfNotNanR u.g1 c.g1,
           b1 := setIfNotNanR u.b1 c.b1,
           g0 := setIfNotNanR u.g0 c.g0,
           b0 := setIfNotNanR u.b0 c.b0 }

structure SourceFixed where
  id : Int
deriving DecidableEq

structure Source (K : Type) where
  fixed : SourceFixed
  status : Bool
  uRef : Option K
  uRefAngle : Option K
  sk : Option K
  rxRatio : Option K
  z01Ratio : Option K

structure SourceUpdate (K : Type) where
  id : Int
  status : Int
  uRef : Option K
  uRefAngle : Option K
  sk : Option K
  rxRatio : Option K
  z01Ratio : Option K

/-- `if (!is_nan(x)) target = x`, the pattern of `P/component/source.hpp` lines 51-62 and 122-137 and
`P/component/voltage_regulator.hpp` lines 77-90. -/
def assignIfGiven (new cur : Option K) : Option K :=
  match new with
  | none => cur
  | some v => some v

/-- `Source::update`, `P/component/source.hpp` lines 87-97, with `set_u_ref` (51-62) and `set_sk_rx_ratio_z01_ratio`
(122-137). -/
def Source.update (c : Source K) (u : SourceUpdate K) : Source K × Change :=
  let s := setStatus c.status u.status
  let imp := u.sk.isSome || u.rxRatio.isSome || u.z01Ratio.isSome
  ({ c with status := s.1,
            uRef := assignIfGiven u.uRef c.uRef,
            uRefAngle := assignIfGiven u.uRefAngle c.uRefAngle,
            sk := assignIfGiven u.sk c.sk,
            rxRatio := assignIfGiven u.rxRatio c.rxRatio,
            z01Ratio := assignIfGiven u.z01Ratio c.z01Ratio }, ⟨s.2, imp || s.2⟩)

/-- `Source::inverse`, lines 99-110. -/
def Source.inverse (c : Source K) (u : SourceUpdate K) : SourceUpdate K :=
  { u with status := setIfNotNanI u.status (statusToInt c.status),
           uRef := setIfNotNanR u.uRef c.uRef,
           uRefAngle := setIfNotNanR u.uRefAngle c.uRefAngle,
           sk := setIfNotNanR u.sk c.sk,
           rxRatio := setIfNotNanR u.rxRatio c.rxRatio,
           z01Ratio := setIfNotNanR u.z01Ratio c.z01Ratio }

/-! ### Loads and generators -/

/-- `direction_` (`P/component/load_gen.hpp` line 121) is 1 for generators and -1 for loads; `basePower` is
`base_power<sym>`. -/
structure LoadGenFixed (K : Type) where
  id : Int
  direction : K
  basePower : K

/-- The specified power in per unit, injection direction: `s_specified_`, line 118, as real and imaginary part. -/
structure LoadGen (n : Nat) (K : Type) where
  fixed : LoadGenFixed K
  status : Bool
  ps : Fin n → Option K
  qs : Fin n → Option K

structure LoadGenUpdate (n : Nat) (K : Type) where
  id : Int
  status : Int
  pSpecified : Fin n → Option K
  qSpecified : Fin n → Option K

/-- `LoadGen::update`, `P/component/load_gen.hpp` lines 98-104 with `set_power`, lines 86-95. -/
def LoadGen.update {n : Nat} (c : LoadGen n K) (u : LoadGenUpdate n K) : LoadGen n K × Change :=
  let scalar := c.fixed.direction / c.fixed.basePower
  ({ c with status := (setStatus c.status u.status).1,
            ps := updateRealV u.pSpecified c.ps scalar,
            qs := updateRealV u.qSpecified c.qs scalar }, ⟨false, false⟩)

/-- `LoadGen::inverse`, lines 106-115. -/
def LoadGen.inverse {n : Nat} (c : LoadGen n K) (u : LoadGenUpdate n K) : LoadGenUpdate n K :=
  let scalar := c.fixed.direction * c.fixed.basePower
  { u with status := setIfNotNanI u.status (statusToInt c.status),
           pSpecified := setIfNotNanV u.pSpecified (fun i => scale scalar (c.ps i)),
           qSpecified := setIfNotNanV u.qSpecified (fun i => scale scalar (c.qs i)) }

/-! ### Sensors -/

/-- `direction` is `convert_direction()` (`P/component/power_sensor.hpp` lines 57-63), `basePower` is
`base_power<sym>`. -/
structure PowerSensorFixed (K : Type) where
  id : Int
  direction : K
  basePower : K

structure PowerSensor (n : Nat) (K : Type) where
  fixed : PowerSensorFixed K
  ps : Fin n → Option K
  qs : Fin n → Option K
  powerSigma : Option K
  pSigma : Fin n → Option K
  qSigma : Fin n → Option K

structure PowerSensorUpdate (n : Nat) (K : Type) where
  id : Int
  pMeasured : Fin n → Option K
  qMeasured : Fin n → Option K
  powerSigma : Option K
  pSigma : Fin n → Option K
  qSigma : Fin n → Option K

/-- `PowerSensor::update`, `P/component/power_sensor.hpp` lines 97-107 with `set_power`, lines 129-137. -/
def PowerSensor.update {n : Nat} (c : PowerSensor n K) (u : PowerSensorUpdate n K) : PowerSensor n K × Change :=
  let inv := 1 / c.fixed.basePower
  let scalar := c.fixed.direction * inv
  ({ c with ps := updateRealV u.pMeasured c.ps scalar,
            qs := updateRealV u.qMeasured c.qs scalar,
            powerSigma := updateReal u.powerSigma c.powerSigma inv,
            pSigma := updateRealV u.pSigma c.pSigma inv,
            qSigma := updateRealV u.qSigma c.qSigma inv }, ⟨false, false⟩)

/-- `PowerSensor::inverse`, lines 109-120. -/
def PowerSensor.inverse {n : Nat} (c : PowerSensor n K) (u : PowerSensorUpdate n K) : PowerSensorUpdate n K :=
  let scalar := c.fixed.direction * c.fixed.basePower
  { u with pMeasured := setIfNotNanV u.pMeasured (fun i => scale scalar (c.ps i)),
           qMeasured := setIfNotNanV u.qMeasured (fun i => scale scalar (c.qs i)),
           powerSigma := setIfNotNanR u.powerSigma (scale c.fixed.basePower c.powerSigma),
           pSigma := setIfNotNanV u.pSigma (fun i => scale c.fixed.basePower (c.pSigma i)),
           qSigma := setIfNotNanV u.qSigma (fun i => scale c.fixed.basePower (c.qSigma i)) }

/-- `uNorm` is `u_rated_ * u_scale<sym>`. -/
structure VoltageSensorFixed (K : Type) where
  id : Int
  uNorm : K

structure VoltageSensor (n : Nat) (K : Type) where
  fixed : VoltageSensorFixed K
  uSigma : Option K
  uMeasured : Fin n → Option K
  uAngle : Fin n → Option K

structure VoltageSensorUpdate (n : Nat) (K : Type) where
  id : Int
  uSigma : Option K
  uMeasured : Fin n → Option K
  uAngle : Fin n → Option K

/-- `VoltageSensor::update`, `P/component/voltage_sensor.hpp` lines 89-100; `inv_u_norm()`, line 119. -/
def VoltageSensor.update {n : Nat} (c : VoltageSensor n K) (u : VoltageSensorUpdate n K) :
    VoltageSensor n K × Change :=
  let inv := 1 / c.fixed.uNorm
  ({ c with uMeasured := updateRealV u.uMeasured c.uMeasured inv,
            uAngle := updateRealV u.uAngle c.uAngle 1,
            uSigma := (match u.uSigma with | none => c.uSigma | some v => some (v * inv)) }, ⟨false, false⟩)

/-- `VoltageSensor::inverse`, lines 102-111. -/
def VoltageSensor.inverse {n : Nat} (c : VoltageSensor n K) (u : VoltageSensorUpdate n K) :
    VoltageSensorUpdate n K :=
  { u with uMeasured := setIfNotNanV u.uMeasured (fun i => scale c.fixed.uNorm (c.uMeasured i)),
           uAngle := setIfNotNanV u.uAngle c.uAngle,
           uSigma := setIfNotNanR u.uSigma (scale c.fixed.uNorm c.uSigma) }

/-- `baseCurrent` is `base_current_`. -/
structure CurrentSensorFixed (K : Type) where
  id : Int
  baseCurrent : K

structure CurrentSensor (n : Nat) (K : Type) where
  fixed : CurrentSensorFixed K
  iSigma : Option K
  iAngleSigma : Option K
  iMeasured : Fin n → Option K
  iAngle : Fin n → Option K

structure CurrentSensorUpdate (n : Nat) (K : Type) where
  id : Int
  iSigma : Option K
  iAngleSigma : Option K
  iMeasured : Fin n → Option K
  iAngle : Fin n → Option K

/-- `CurrentSensor::update`, `P/component/current_sensor.hpp` lines 111-120; `base_current_inv_`, line 93. -/
def CurrentSensor.update {n : Nat} (c : CurrentSensor n K) (u : CurrentSensorUpdate n K) :
    CurrentSensor n K × Change :=
  let inv := 1 / c.fixed.baseCurrent
  ({ c with iSigma := updateReal u.iSigma c.iSigma inv,
            iAngleSigma := updateReal u.iAngleSigma c.iAngleSigma 1,
            iMeasured := updateRealV u.iMeasured c.iMeasured inv,
            iAngle := updateRealV u.iAngle c.iAngle 1 }, ⟨false, false⟩)

/-- `CurrentSensor::inverse`, lines 122-132. -/
def CurrentSensor.inverse {n : Nat} (c : CurrentSensor n K) (u : CurrentSensorUpdate n K) :
    CurrentSensorUpdate n K :=
  { u with iSigma := setIfNotNanR u.iSigma (scale c.fixed.baseCurrent c.iSigma),
           iAngleSigma := setIfNotNanR u.iAngleSigma c.iAngleSigma,
           iMeasured := setIfNotNanV u.iMeasured (fun i => scale c.fixed.baseCurrent (c.iMeasured i)),
           iAngle := setIfNotNanV u.iAngle c.iAngle }

/-! ### Fault -/

structure FaultFixed where
  id : Int
deriving DecidableEq

structure Fault (K : Type) where
  fixed : FaultFixed
  status : Bool
  faultType : Int
  faultPhase : Int
  faultObject : Int
  rF : Option K
  xF : Option K

structure FaultUpdate (K : Type) where
  id : Int
  status : Int
  faultType : Int
  faultPhase : Int
  faultObject : Int
  rF : Option K
  xF : Option K

/-- `Fault::check_sanity`, `P/component/fault.hpp` lines 206-232, with the numeric values of `FaultType` and
`FaultPhase` (`P/common/enum.hpp` lines 89-107): `true` if no exception is thrown. -/
def faultSane (type phase : Int) : Bool :=
  if type = 0 then decide (phase ∈ [naIntS, -1, 0])
  else if type = 1 then decide (phase ∈ [naIntS, -1, 1, 2, 3])
  else if type = 2 ∨ type = 3 then decide (phase ∈ [naIntS, -1, 4, 5, 6])
  else if type = naIntS then decide (phase ∈ [naIntS, -1, 0, 1, 2, 3, 4, 5, 6])
  else false

/-- `Fault::update`, lines 109-129: the attributes are assigned first, then `check_sanity` may throw. The flag tells
whether it threw. -/
def Fault.update (c : Fault K) (u : FaultUpdate K) : Fault K × Change × Bool :=
  let c' : Fault K :=
    { c with status := (setStatus c.status u.status).1,
             faultType := if u.faultType ≠ naIntS then u.faultType else c.faultType,
             faultPhase := if u.faultPhase ≠ naIntS then u.faultPhase else c.faultPhase,
             faultObject := if u.faultObject ≠ naIntID then u.faultObject else c.faultObject,
             rF := assignIfGiven u.rF c.rF,
             xF := assignIfGiven u.xF c.xF }
  (c', ⟨false, false⟩, !faultSane c'.faultType c'.faultPhase)

/-- `Fault::inverse`, lines 131-142. -/
def Fault.inverse (c : Fault K) (u : FaultUpdate K) : FaultUpdate K :=
  { u with status := setIfNotNanI u.status (statusToInt c.status),
           faultType := setIfNotNanI u.faultType c.faultType,
           faultPhase := setIfNotNanI u.faultPhase c.faultPhase,
           faultObject := setIfNotNanID u.faultObject c.faultObject,
           rF := setIfNotNanR u.rF c.rF,
           xF := setIfNotNanR u.xF c.xF }

/-! ### Regulators -/

structure RegulatorFixed where
  id : Int
deriving DecidableEq

structure TapRegulator (K : Type) where
  fixed : RegulatorFixed
  status : Bool
  uSet : Option K
  uBand : Option K
  ldcR : Option K
  ldcX : Option K

structure TapRegulatorUpdate (K : Type) where
  id : Int
  status : Int
  uSet : Option K
  uBand : Option K
  ldcR : Option K
  ldcX : Option K

/-- `TransformerTapRegulator::update`, `P/component/transformer_tap_regulator.hpp` lines 42-50, with
`Regulator::set_status`, `P/component/regulator.hpp` line 33, which has no test for NaN. -/
def TapRegulator.update (c : TapRegulator K) (u : TapRegulatorUpdate K) : TapRegulator K × Change :=
  ({ c with status := toBool u.status,
            uSet := updateReal u.uSet c.uSet 1,
            uBand := updateReal u.uBand c.uBand 1,
            ldcR := updateReal u.ldcR c.ldcR 1,
            ldcX := updateReal u.ldcX c.ldcX 1 }, ⟨false, false⟩)

/-- `TransformerTapRegulator::inverse`, lines 52-62, with `Regulator::inverse`, regulator.hpp lines 35-39. -/
def TapRegulator.inverse (c : TapRegulator K) (u : TapRegulatorUpdate K) : TapRegulatorUpdate K :=
  { u with status := setIfNotNanI u.status (statusToInt c.status),
           uSet := setIfNotNanR u.uSet c.uSet,
           uBand := setIfNotNanR u.uBand c.uBand,
           ldcR := setIfNotNanR u.ldcR c.ldcR,
           ldcX := setIfNotNanR u.ldcX c.ldcX }

structure VoltageRegulator (K : Type) where
  fixed : RegulatorFixed
  status : Bool
  uRef : Option K
  qMin : Option K
  qMax : Option K

structure VoltageRegulatorUpdate (K : Type) where
  id : Int
  status : Int
  uRef : Option K
  qMin : Option K
  qMax : Option K

/-- `VoltageRegulator::update`, `P/component/voltage_regulator.hpp` lines 35-41, 77-90, with `Regulator::set_status`,
regulator.hpp line 33. -/
def VoltageRegulator.update (c : VoltageRegulator K) (u : VoltageRegulatorUpdate K) : VoltageRegulator K × Change :=
  ({ c with status := toBool u.status,
            uRef := assignIfGiven u.uRef c.uRef,
            qMin := assignIfGiven u.qMin c.qMin,
            qMax := assignIfGiven u.qMax c.qMax }, ⟨false, false⟩)

/-- `VoltageRegulator::inverse`, lines 43-51. -/
def VoltageRegulator.inverse (c : VoltageRegulator K) (u : VoltageRegulatorUpdate K) : VoltageRegulatorUpdate K :=
  { u with status := setIfNotNanI u.status (statusToInt c.status),
           uRef := setIfNotNanR u.uRef c.uRef,
           qMin := setIfNotNanR u.qMin c.qMin,
           qMax := setIfNotNanR u.qMax c.qMax }

/-! ### The component types -/

/-- What the update machinery needs to know about a component type: the last component of `update` is `true` if it threw.
-/
structure CompClass where
  C : Type
  U : Type
  cid : C → Int
  uid : U → Int
  withId : U → Int → U
  update : C → U → C × Change × Bool
  inverse : C → U → U

/-- A node: `Node::update`, `P/component/node.hpp` line 30, does nothing; `BaseUpdate` has an ID only. -/
def nodeClass : CompClass := ⟨Int, Int, id, id, fun _ i => i, fun c _ => (c, ⟨false, false⟩, false), fun _ u => u⟩
def branchClass : CompClass :=
  ⟨Branch, BranchUpdate, (·.fixed.id), (·.id), fun u i => { u with id := i }, fun c u => ((c.update u).1, (c.update u).2, false), Branch.inverse⟩
def transformerClass : CompClass :=
  ⟨Transformer, TransformerUpdate, (·.fixed.id), (·.id), fun u i => { u with id := i }, fun c u => ((c.update u).1, (c.update u).2, false),
    Transformer.inverse⟩
def transformer3Class : CompClass :=
  ⟨Transformer3, Transformer3Update, (·.fixed.id), (·.id), fun u i => { u with id := i }, fun c u => ((c.update u).1, (c.update u).2, false),
    Transformer3.inverse⟩

section
variable (K)
def shuntClass : CompClass :=
  ⟨Shunt K, ShuntUpdate K, (·.fixed.id), (·.id), fun u i => { u with id := i }, fun c u => ((c.update u).1, (c.update u).2, false), Shunt.inverse⟩
def sourceClass : CompClass :=
  ⟨Source K, SourceUpdate K, (·.fixed.id), (·.id), fun u i => { u with id := i }, fun c u => ((c.update u).1, (c.update u).2, false),
    Source.inverse⟩
def loadGenClass (n : Nat) : CompClass :=
  ⟨LoadGen n K, LoadGenUpdate n K, (·.fixed.id), (·.id), fun u i => { u with id := i }, fun c u => ((c.update u).1, (c.update u).2, false),
    LoadGen.inverse⟩
def powerSensorClass (n : Nat) : CompClass :=
  ⟨PowerSensor n K, PowerSensorUpdate n K, (·.fixed.id), (·.id), fun u i => { u with id := i }, fun c u => ((c.update u).1, (c.update u).2, false),
    PowerSensor.inverse⟩
def voltageSensorClass (n : Nat) : CompClass :=
  ⟨VoltageSensor n K, VoltageSensorUpdate n K, (·.fixed.id), (·.id), fun u i => { u with id := i },
    fun c u => ((c.update u).1, (c.update u).2, false), VoltageSensor.inverse⟩
def currentSensorClass (n : Nat) : CompClass :=
  ⟨CurrentSensor n K, CurrentSensorUpdate n K, (·.fixed.id), (·.id), fun u i => { u with id := i },
    fun c u => ((c.update u).1, (c.update u).2, false), CurrentSensor.inverse⟩
def faultClass : CompClass :=
  ⟨Fault K, FaultUpdate K, (·.fixed.id), (·.id), fun u i => { u with id := i }, Fault.update, Fault.inverse⟩
def tapRegulatorClass : CompClass :=
  ⟨TapRegulator K, TapRegulatorUpdate K, (·.fixed.id), (·.id), fun u i => { u with id := i }, fun c u => ((c.update u).1, (c.update u).2, false),
    TapRegulator.inverse⟩
def voltageRegulatorClass : CompClass :=
  ⟨VoltageRegulator K, VoltageRegulatorUpdate K, (·.fixed.id), (·.id), fun u i => { u with id := i },
    fun c u => ((c.update u).1, (c.update u).2, false), VoltageRegulator.inverse⟩

end

/-- `AllComponents`, `P/all_components.hpp` lines 37-42, in this order. -/
inductive CompType where
  | node | line | asymLine | link | genericBranch | transformer | threeWindingTransformer | shunt | source | symGen
  | asymGen | symLoad | asymLoad | symPowerSensor | asymPowerSensor | symVoltageSensor | asymVoltageSensor
  | symCurrentSensor | asymCurrentSensor | fault | tapRegulator | voltageRegulator
deriving DecidableEq, Repr

/-- The visiting order of `run_functor_with_all_component_types_*` (`P/main_model_type.hpp`). -/
def allTypes : List CompType :=
  [.node, .line, .asymLine, .link, .genericBranch, .transformer, .threeWindingTransformer, .shunt, .source, .symGen,
   .asymGen, .symLoad, .asymLoad, .symPowerSensor, .asymPowerSensor, .symVoltageSensor, .asymVoltageSensor,
   .symCurrentSensor, .asymCurrentSensor, .fault, .tapRegulator, .voltageRegulator]

/-- The update rules of every component type. `Line`, `AsymLine`, `Link` and `GenericBranch` inherit those of `Branch`
(`P/component/branch.hpp`). -/
def classOf (K : Type) [Field K] [DecidableEq K] : CompType → CompClass
  | .node => nodeClass
  | .line | .asymLine | .link | .genericBranch => branchClass
  | .transformer => transformerClass
  | .threeWindingTransformer => transformer3Class
  | .shunt => shuntClass K
  | .source => sourceClass K
  | .symGen | .symLoad => loadGenClass K 1
  | .asymGen | .asymLoad => loadGenClass K 3
  | .symPowerSensor => powerSensorClass K 1
  | .asymPowerSensor => powerSensorClass K 3
  | .symVoltageSensor => voltageSensorClass K 1
  | .asymVoltageSensor => voltageSensorClass K 3
  | .symCurrentSensor => currentSensorClass K 1
  | .asymCurrentSensor => currentSensorClass K 3
  | .fault => faultClass K
  | .tapRegulator => tapRegulatorClass K
  | .voltageRegulator => voltageRegulatorClass K

end PGM.Update
