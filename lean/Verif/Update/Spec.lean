import Verif.Update.Component

/-!
# Specification of component attributes

The attributes of a component and of an update element as the user sees them: in the user's units (W, var, V, A), with
`none` for "not specified". This file does not use the update functions of the model. A schema says for a component type
which attributes an update can carry, what value a component has for them, and which values an update element gives.
-/

namespace PGM.Update

/-- An attribute value. -/
inductive Val (K : Type) where
  | real (x : K)
  | int (i : Int)
  | flag (b : Bool)
deriving DecidableEq

/-- User view of a component type. `accept c a v` is the value the component takes when it is given `v`; it is `v` itself
except for tap positions, which are limited to the tap range. `wf` are the facts that hold for every component that the
constructors produce. `full u` is true if the update element names all attributes that have no "not given" treatment (only
used for regulators, see the findings). `fixed` are the data that no update can change. -/
structure Schema (K : Type) (cl : CompClass) where
  Attr : Type
  Fixed : Type
  fixed : cl.C → Fixed
  value : cl.C → Attr → Option (Val K)
  given : cl.U → Attr → Option (Val K)
  accept : cl.C → Attr → Val K → Val K
  wf : cl.C → Prop
  full : cl.U → Prop

/-- A status in an update: `-128` is "not given", otherwise non-zero means connected. -/
def givenStatus {K : Type} (x : Int) : Option (Val K) := if x = -128 then none else some (.flag (decide (x ≠ 0)))
/-- An `int8` (tap position, enumeration) in an update or a component. -/
def givenInt {K : Type} (x : Int) : Option (Val K) := if x = -128 then none else some (.int x)
/-- An ID in an update or a component. -/
def givenID {K : Type} (x : Int) : Option (Val K) := if x = -2147483648 then none else some (.int x)
/-- A real number in an update or a component. -/
def givenReal {K : Type} (x : Option K) : Option (Val K) := x.map .real

variable (K : Type) [Field K] [DecidableEq K]

inductive NoAttr

/-- A node has no attributes that can be updated. -/
def nodeSchema : Schema K nodeClass where
  Attr := NoAttr
  Fixed := Int
  fixed := fun c => c
  value := fun _ a => nomatch a
  given := fun _ a => nomatch a
  accept := fun _ _ v => v
  wf := fun _ => True
  full := fun _ => True

inductive BranchAttr | fromStatus | toStatus

def branchSchema : Schema K branchClass where
  Attr := BranchAttr
  Fixed := BranchFixed
  fixed := fun (c : Branch) => c.fixed
  value := fun (c : Branch) a => match a with
    | .fromStatus => some (.flag c.fromStatus)
    | .toStatus => some (.flag c.toStatus)
  given := fun (u : BranchUpdate) a => match a with
    | .fromStatus => givenStatus u.fromStatus
    | .toStatus => givenStatus u.toStatus
  accept := fun _ _ v => v
  wf := fun _ => True
  full := fun _ => True

/-- Limit a tap position to the range between the two extreme positions (which may be given in either order). -/
def clampTap (tapMin tapMax x : Int) : Int :=
  let lo := if tapMin ≤ tapMax then tapMin else tapMax
  let hi := if tapMin ≤ tapMax then tapMax else tapMin
  if x < lo then lo else if hi < x then hi else x

def acceptTap (f : TransformerFixed) (v : Val K) : Val K :=
  match v with
  | .int x => .int (clampTap f.tapMin f.tapMax x)
  | v => v

/-- A tap position that the constructor can produce: inside the range, and not the NaN value. -/
def tapOk (f : TransformerFixed) (x : Int) : Prop :=
  x ≠ -128 ∧ ((f.tapMin ≤ x ∧ x ≤ f.tapMax) ∨ (f.tapMax ≤ x ∧ x ≤ f.tapMin))

inductive TransformerAttr | fromStatus | toStatus | tapPos

def transformerSchema : Schema K transformerClass where
  Attr := TransformerAttr
  Fixed := TransformerFixed
  fixed := fun (c : Transformer) => c.fixed
  value := fun (c : Transformer) a => match a with
    | .fromStatus => some (.flag c.fromStatus)
    | .toStatus => some (.flag c.toStatus)
    | .tapPos => some (.int c.tapPos)
  given := fun (u : TransformerUpdate) a => match a with
    | .fromStatus => givenStatus u.fromStatus
    | .toStatus => givenStatus u.toStatus
    | .tapPos => givenInt u.tapPos
  accept := fun (c : Transformer) a v => match a with
    | .tapPos => acceptTap K c.fixed v
    | _ => v
  wf := fun (c : Transformer) => tapOk c.fixed c.tapPos
    ∧ c.fixed.tapMin ≠ -128 ∧ c.fixed.tapMax ≠ -128
  full := fun _ => True

inductive Transformer3Attr | status1 | status2 | status3 | tapPos

def transformer3Schema : Schema K transformer3Class where
  Attr := Transformer3Attr
  Fixed := TransformerFixed
  fixed := fun (c : Transformer3) => c.fixed
  value := fun (c : Transformer3) a => match a with
    | .status1 => some (.flag c.status1)
    | .status2 => some (.flag c.status2)
    | .status3 => some (.flag c.status3)
    | .tapPos => some (.int c.tapPos)
  given := fun (u : Transformer3Update) a => match a with
    | .status1 => givenStatus u.status1
    | .status2 => givenStatus u.status2
    | .status3 => givenStatus u.status3
    | .tapPos => givenInt u.tapPos
  accept := fun (c : Transformer3) a v => match a with
    | .tapPos => acceptTap K c.fixed v
    | _ => v
  wf := fun (c : Transformer3) => tapOk c.fixed c.tapPos
    ∧ c.fixed.tapMin ≠ -128 ∧ c.fixed.tapMax ≠ -128
  full := fun _ => True

inductive ShuntAttr | status | g1 | b1 | g0 | b0

def shuntSchema : Schema K (shuntClass K) where
  Attr := ShuntAttr
  Fixed := ShuntFixed
  fixed := fun (c : Shunt K) => c.fixed
  value := fun (c : Shunt K) a => match a with
    | .status => some (.flag c.status)
    | .g1 => givenReal c.g1
    | .b1 => givenReal c.b1
    | .g0 => givenReal c.g0
    | .b0 => givenReal c.b0
  given := fun (u : ShuntUpdate K) a => match a with
    | .status => givenStatus u.status
    | .g1 => givenReal u.g1
    | .b1 => givenReal u.b1
    | .g0 => givenReal u.g0
    | .b0 => givenReal u.b0
  accept := fun _ _ v => v
  wf := fun _ => True
  full := fun _ => True

inductive SourceAttr | status | uRef | uRefAngle | sk | rxRatio | z01Ratio

def sourceSchema : Schema K (sourceClass K) where
  Attr := SourceAttr
  Fixed := SourceFixed
  fixed := fun (c : Source K) => c.fixed
  value := fun (c : Source K) a => match a with
    | .status => some (.flag c.status)
    | .uRef => givenReal c.uRef
    | .uRefAngle => givenReal c.uRefAngle
    | .sk => givenReal c.sk
    | .rxRatio => givenReal c.rxRatio
    | .z01Ratio => givenReal c.z01Ratio
  given := fun (u : SourceUpdate K) a => match a with
    | .status => givenStatus u.status
    | .uRef => givenReal u.uRef
    | .uRefAngle => givenReal u.uRefAngle
    | .sk => givenReal u.sk
    | .rxRatio => givenReal u.rxRatio
    | .z01Ratio => givenReal u.z01Ratio
  accept := fun _ _ v => v
  wf := fun _ => True
  full := fun _ => True

inductive LoadGenAttr (n : Nat) | status | p (i : Fin n) | q (i : Fin n)

/-- The stored power is in per unit and in injection direction; the user's value is that of the load or generator. -/
def loadGenSchema (n : Nat) : Schema K (loadGenClass K n) where
  Attr := LoadGenAttr n
  Fixed := LoadGenFixed K
  fixed := fun (c : LoadGen n K) => c.fixed
  value := fun (c : LoadGen n K) a => match a with
    | .status => some (.flag c.status)
    | .p i => givenReal ((c.ps i).map (fun x => x * c.fixed.direction * c.fixed.basePower))
    | .q i => givenReal ((c.qs i).map (fun x => x * c.fixed.direction * c.fixed.basePower))
  given := fun (u : LoadGenUpdate n K) a => match a with
    | .status => givenStatus u.status
    | .p i => givenReal (u.pSpecified i)
    | .q i => givenReal (u.qSpecified i)
  accept := fun _ _ v => v
  wf := fun (c : LoadGen n K) => c.fixed.direction * c.fixed.direction = 1 ∧ c.fixed.basePower ≠ 0
  full := fun _ => True

inductive PowerSensorAttr (n : Nat) | p (i : Fin n) | q (i : Fin n) | powerSigma | pSigma (i : Fin n) | qSigma (i : Fin n)

def powerSensorSchema (n : Nat) : Schema K (powerSensorClass K n) where
  Attr := PowerSensorAttr n
  Fixed := PowerSensorFixed K
  fixed := fun (c : PowerSensor n K) => c.fixed
  value := fun (c : PowerSensor n K) a => match a with
    | .p i => givenReal ((c.ps i).map (fun x => x * c.fixed.direction * c.fixed.basePower))
    | .q i => givenReal ((c.qs i).map (fun x => x * c.fixed.direction * c.fixed.basePower))
    | .powerSigma => givenReal (c.powerSigma.map (fun x => x * c.fixed.basePower))
    | .pSigma i => givenReal ((c.pSigma i).map (fun x => x * c.fixed.basePower))
    | .qSigma i => givenReal ((c.qSigma i).map (fun x => x * c.fixed.basePower))
  given := fun (u : PowerSensorUpdate n K) a => match a with
    | .p i => givenReal (u.pMeasured i)
    | .q i => givenReal (u.qMeasured i)
    | .powerSigma => givenReal u.powerSigma
    | .pSigma i => givenReal (u.pSigma i)
    | .qSigma i => givenReal (u.qSigma i)
  accept := fun _ _ v => v
  wf := fun (c : PowerSensor n K) => c.fixed.direction * c.fixed.direction = 1 ∧ c.fixed.basePower ≠ 0
  full := fun _ => True

inductive VoltageSensorAttr (n : Nat) | uSigma | uMeasured (i : Fin n) | uAngle (i : Fin n)

def voltageSensorSchema (n : Nat) : Schema K (voltageSensorClass K n) where
  Attr := VoltageSensorAttr n
  Fixed := VoltageSensorFixed K
  fixed := fun (c : VoltageSensor n K) => c.fixed
  value := fun (c : VoltageSensor n K) a => match a with
    | .uSigma => givenReal (c.uSigma.map (fun x => x * c.fixed.uNorm))
    | .uMeasured i => givenReal ((c.uMeasured i).map (fun x => x * c.fixed.uNorm))
    | .uAngle i => givenReal (c.uAngle i)
  given := fun (u : VoltageSensorUpdate n K) a => match a with
    | .uSigma => givenReal u.uSigma
    | .uMeasured i => givenReal (u.uMeasured i)
    | .uAngle i => givenReal (u.uAngle i)
  accept := fun _ _ v => v
  wf := fun (c : VoltageSensor n K) => c.fixed.uNorm ≠ 0
  full := fun _ => True

inductive CurrentSensorAttr (n : Nat) | iSigma | iAngleSigma | iMeasured (i : Fin n) | iAngle (i : Fin n)

def currentSensorSchema (n : Nat) : Schema K (currentSensorClass K n) where
  Attr := CurrentSensorAttr n
  Fixed := CurrentSensorFixed K
  fixed := fun (c : CurrentSensor n K) => c.fixed
  value := fun (c : CurrentSensor n K) a => match a with
    | .iSigma => givenReal (c.iSigma.map (fun x => x * c.fixed.baseCurrent))
    | .iAngleSigma => givenReal c.iAngleSigma
    | .iMeasured i => givenReal ((c.iMeasured i).map (fun x => x * c.fixed.baseCurrent))
    | .iAngle i => givenReal (c.iAngle i)
  given := fun (u : CurrentSensorUpdate n K) a => match a with
    | .iSigma => givenReal u.iSigma
    | .iAngleSigma => givenReal u.iAngleSigma
    | .iMeasured i => givenReal (u.iMeasured i)
    | .iAngle i => givenReal (u.iAngle i)
  accept := fun _ _ v => v
  wf := fun (c : CurrentSensor n K) => c.fixed.baseCurrent ≠ 0
  full := fun _ => True

inductive FaultAttr | status | faultType | faultPhase | faultObject | rF | xF

def faultSchema : Schema K (faultClass K) where
  Attr := FaultAttr
  Fixed := FaultFixed
  fixed := fun (c : Fault K) => c.fixed
  value := fun (c : Fault K) a => match a with
    | .status => some (.flag c.status)
    | .faultType => givenInt c.faultType
    | .faultPhase => givenInt c.faultPhase
    | .faultObject => givenID c.faultObject
    | .rF => givenReal c.rF
    | .xF => givenReal c.xF
  given := fun (u : FaultUpdate K) a => match a with
    | .status => givenStatus u.status
    | .faultType => givenInt u.faultType
    | .faultPhase => givenInt u.faultPhase
    | .faultObject => givenID u.faultObject
    | .rF => givenReal u.rF
    | .xF => givenReal u.xF
  accept := fun _ _ v => v
  wf := fun _ => True
  full := fun _ => True

inductive TapRegulatorAttr | status | uSet | uBand | ldcR | ldcX

def tapRegulatorSchema : Schema K (tapRegulatorClass K) where
  Attr := TapRegulatorAttr
  Fixed := RegulatorFixed
  fixed := fun (c : TapRegulator K) => c.fixed
  value := fun (c : TapRegulator K) a => match a with
    | .status => some (.flag c.status)
    | .uSet => givenReal c.uSet
    | .uBand => givenReal c.uBand
    | .ldcR => givenReal c.ldcR
    | .ldcX => givenReal c.ldcX
  given := fun (u : TapRegulatorUpdate K) a => match a with
    | .status => givenStatus u.status
    | .uSet => givenReal u.uSet
    | .uBand => givenReal u.uBand
    | .ldcR => givenReal u.ldcR
    | .ldcX => givenReal u.ldcX
  accept := fun _ _ v => v
  wf := fun _ => True
  full := fun (u : TapRegulatorUpdate K) => u.status ≠ -128

inductive VoltageRegulatorAttr | status | uRef | qMin | qMax

def voltageRegulatorSchema : Schema K (voltageRegulatorClass K) where
  Attr := VoltageRegulatorAttr
  Fixed := RegulatorFixed
  fixed := fun (c : VoltageRegulator K) => c.fixed
  value := fun (c : VoltageRegulator K) a => match a with
    | .status => some (.flag c.status)
    | .uRef => givenReal c.uRef
    | .qMin => givenReal c.qMin
    | .qMax => givenReal c.qMax
  given := fun (u : VoltageRegulatorUpdate K) a => match a with
    | .status => givenStatus u.status
    | .uRef => givenReal u.uRef
    | .qMin => givenReal u.qMin
    | .qMax => givenReal u.qMax
  accept := fun _ _ v => v
  wf := fun _ => True
  full := fun (u : VoltageRegulatorUpdate K) => u.status ≠ -128

/-- The attributes of every component type. -/
def schemaOf : (t : CompType) → Schema K (classOf K t)
  | .node => nodeSchema K
  | .line | .asymLine | .link | .genericBranch => branchSchema K
  | .transformer => transformerSchema K
  | .threeWindingTransformer => transformer3Schema K
  | .shunt => shuntSchema K
  | .source => sourceSchema K
  | .symGen | .symLoad => loadGenSchema K 1
  | .asymGen | .asymLoad => loadGenSchema K 3
  | .symPowerSensor => powerSensorSchema K 1
  | .asymPowerSensor => powerSensorSchema K 3
  | .symVoltageSensor => voltageSensorSchema K 1
  | .asymVoltageSensor => voltageSensorSchema K 3
  | .symCurrentSensor => currentSensorSchema K 1
  | .asymCurrentSensor => currentSensorSchema K 3
  | .fault => faultSchema K
  | .tapRegulator => tapRegulatorSchema K
  | .voltageRegulator => voltageRegulatorSchema K

variable {K}

/-- The rule of property C10: an attribute that is given takes the given value, an attribute that is omitted keeps its
value. -/
def SetsGiven {cl : CompClass} (S : Schema K cl) (c : cl.C) (u : cl.U) : Prop :=
  ∀ a, S.value (cl.update c u).1 a =
    match S.given u a with
    | none => S.value c a
    | some v => some (S.accept c a v)

end PGM.Update
