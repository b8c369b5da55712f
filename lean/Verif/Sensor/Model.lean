import Verif.Sensor.Spec
import Verif.Output.Model

/-!
# Sensors: from attributes to the parameters of the state estimation (property C60)

Prefix of all paths: `P/` = `/repo/power_grid_model_c/power_grid_model/include/power_grid_model/`. A sensor of symmetry `τ` takes part in a
calculation of symmetry `σ`. Numbers are exact; a NaN is `none`; standard deviations of power and voltage may be infinite, those of current
and the measured values are finite. Subnormal numbers are not modelled, so that a number is normal unless it is zero.
-/

namespace PGM.Sensor

open PGM.PowerFlow PGM.Output PGM.Topology

/-- Multiplication with a positive number. -/
def Dev.scale (c : ℝ) : Dev → Dev
  | .inf => .inf
  | .fin x => .fin (x * c)

/-- `x * x`. -/
def Dev.square : Dev → Dev
  | .inf => .inf
  | .fin x => .fin (x * x)

/-- `x / 2`. -/
noncomputable def Dev.half : Dev → Dev
  | .inf => .inf
  | .fin x => .fin (x / 2)

/-- `update_real_value`, `P/common/three_phase_tensor.hpp` lines 419-432, one number. -/
def updateReal (new : Option ℝ) (cur scalar : ℝ) : ℝ := match new with | none => cur | some v => scalar * v

/-- The same for numbers that may be NaN. -/
def updateRealO (new cur : Option ℝ) (scalar : ℝ) : Option ℝ := match new with | none => cur | some v => some (scalar * v)

/-- The same for standard deviations. -/
def updateDev (new cur : Option Dev) (scalar : ℝ) : Option Dev := match new with | none => cur | some v => some (v.scale scalar)

/-- All numbers of a vector, if none is NaN. -/
def allGiven {α : Type} : {τ : Symm} → (Fin τ.phases → Option α) → Option (Fin τ.phases → α)
  | .sym, x =>
    match x 0 with
    | some a => some fun _ => a
    | none => none
  | .asym, x =>
    match x 0, x 1, x 2 with
    | some a, some b, some c => some (![a, b, c] : Fin 3 → α)
    | _, _, _ => none

/-- `is_normal` of a standard deviation, `P/common/three_phase_tensor.hpp` line 380: its value. -/
noncomputable def normal : Option Dev → Option ℝ
  | some (.fin x) => open Classical in if x ≠ 0 then some x else none
  | _ => none

/-- From the symmetry of the sensor to that of the calculation: `mean_val`, `RealValue<asymmetric_t>{x}` or no conversion,
`P/component/power_sensor.hpp` lines 142-143, 153-155, 161-162 and 172-173. -/
noncomputable def toCalc (τ σ : Symm) (x : Fin τ.phases → ℝ) (j : Fin σ.phases) : ℝ :=
  match τ, σ with
  | .sym, .sym => x 0
  | .sym, .asym => x 0
  | .asym, .asym => x j
  | .asym, .sym => (x 0 + x 1 + x 2) / 3

/-! ## Power sensors -/

/-- The electrical part of `PowerSensorInput` and `PowerSensorUpdate`. -/
structure PowerInput (τ : Symm) where
  p : Fin τ.phases → Option ℝ
  q : Fin τ.phases → Option ℝ
  powerSigma : Option Dev
  pSigma : Fin τ.phases → Option Dev
  qSigma : Fin τ.phases → Option Dev

/-- The members of a `PowerSensor`. `s_measured_` is never NaN. -/
structure PowerSensor (τ : Symm) where
  p : Fin τ.phases → ℝ
  q : Fin τ.phases → ℝ
  powerSigma : Option Dev
  pSigma : Fin τ.phases → Option Dev
  qSigma : Fin τ.phases → Option Dev

/-- `inv_base_power`, `P/component/power_sensor.hpp` line 77. -/
noncomputable def invBase (τ : Symm) : ℝ := 1 / basePower τ

/-- The constructor, `P/component/power_sensor.hpp` lines 88-95 with `set_power`, lines 129-137; `s_measured_` starts with zero, line 123. -/
noncomputable def mkPower {τ : Symm} (t : Terminal) (i : PowerInput τ) : PowerSensor τ where
  p := fun j => updateReal (i.p j) 0 (convertDirection t * invBase τ)
  q := fun j => updateReal (i.q j) 0 (convertDirection t * invBase τ)
  powerSigma := i.powerSigma.map (·.scale (invBase τ))
  pSigma := fun j => (i.pSigma j).map (·.scale (invBase τ))
  qSigma := fun j => (i.qSigma j).map (·.scale (invBase τ))

/-- `PowerSensor::update`, `P/component/power_sensor.hpp` lines 97-107 with `set_power`. -/
noncomputable def updatePower {τ : Symm} (t : Terminal) (s : PowerSensor τ) (i : PowerInput τ) : PowerSensor τ where
  p := fun j => updateReal (i.p j) (s.p j) (convertDirection t * invBase τ)
  q := fun j => updateReal (i.q j) (s.q j) (convertDirection t * invBase τ)
  powerSigma := updateDev i.powerSigma s.powerSigma (invBase τ)
  pSigma := fun j => updateDev (i.pSigma j) (s.pSigma j) (invBase τ)
  qSigma := fun j => updateDev (i.qSigma j) (s.qSigma j) (invBase τ)

/-- A power sensor after a history of updates. -/
noncomputable def powerSensor {τ : Symm} (t : Terminal) (i : PowerInput τ) (updates : List (PowerInput τ)) : PowerSensor τ :=
  updates.foldl (updatePower t) (mkPower t i)

/-- `PowerSensorCalcParam`. A variance that is NaN is `none`. -/
structure PowerParam (σ : Symm) where
  p : Fin σ.phases → ℝ
  q : Fin σ.phases → ℝ
  pVariance : Fin σ.phases → Option Dev
  qVariance : Fin σ.phases → Option Dev

/-- The variance if the deviations are not both normal, `P/component/power_sensor.hpp` lines 145-148 and 164-168. -/
noncomputable def otherVariance {τ : Symm} (s : PowerSensor τ) : Option Dev :=
  open Classical in
  if ∀ j, s.pSigma j = none then s.powerSigma.map fun d => d.square.half else some .inf

/-- `PowerSensor::sym_calc_param` and `asym_calc_param`, `P/component/power_sensor.hpp` lines 139-177. -/
noncomputable def PowerSensor.calcParam {τ : Symm} (s : PowerSensor τ) (σ : Symm) : PowerParam σ :=
  match allGiven (fun j => normal (s.pSigma j)), allGiven (fun j => normal (s.qSigma j)) with
  | some a, some b =>
    ⟨toCalc τ σ s.p, toCalc τ σ s.q, fun j => some (.fin (toCalc τ σ (fun k => a k * a k) j)),
      fun j => some (.fin (toCalc τ σ (fun k => b k * b k) j))⟩
  | _, _ => ⟨toCalc τ σ s.p, toCalc τ σ s.q, fun _ => otherVariance s, fun _ => otherVariance s⟩

/-! ## Voltage sensors -/

/-- The electrical part of `VoltageSensorInput` and `VoltageSensorUpdate`, and the members of a `VoltageSensor`. -/
structure VoltageValues (τ : Symm) where
  u : Fin τ.phases → Option ℝ
  angle : Fin τ.phases → Option ℝ
  sigma : Option Dev

/-- `inv_u_norm`, `P/component/voltage_sensor.hpp` line 119. -/
noncomputable def invNorm (τ : Symm) (uRated : ℝ) : ℝ := 1 / (uRated * uScale τ)

/-- The constructor, `P/component/voltage_sensor.hpp` lines 82-87. -/
noncomputable def mkVoltage {τ : Symm} (uRated : ℝ) (i : VoltageValues τ) : VoltageValues τ where
  u := fun j => (i.u j).map fun x => invNorm τ uRated * x
  angle := i.angle
  sigma := i.sigma.map (·.scale (invNorm τ uRated))

/-- `VoltageSensor::update`, `P/component/voltage_sensor.hpp` lines 89-100. -/
noncomputable def updateVoltage {τ : Symm} (uRated : ℝ) (s i : VoltageValues τ) : VoltageValues τ where
  u := fun j => updateRealO (i.u j) (s.u j) (invNorm τ uRated)
  angle := fun j => updateRealO (i.angle j) (s.angle j) 1
  sigma := updateDev i.sigma s.sigma (invNorm τ uRated)

/-- A voltage sensor after a history of updates. -/
noncomputable def voltageSensor {τ : Symm} (uRated : ℝ) (i : VoltageValues τ) (updates : List (VoltageValues τ)) : VoltageValues τ :=
  updates.foldl (updateVoltage uRated) (mkVoltage uRated i)

/-- The phasors of `calc_param`, `P/component/voltage_sensor.hpp` lines 132-134 and 144. -/
noncomputable def phasorParam (τ σ : Symm) (u θ : Fin τ.phases → ℝ) (j : Fin σ.phases) : ℂ :=
  match τ, σ with
  | .sym, .sym => u 0 * Complex.exp (Complex.I * θ 0)
  | .sym, .asym => spread .asym (u 0 * Complex.exp (Complex.I * θ 0)) j
  | .asym, .asym => u j * Complex.exp (Complex.I * θ j)
  | .asym, .sym => posSeqOf fun k => u k * Complex.exp (Complex.I * θ k)

/-- `VoltageSensor::sym_calc_param` and `asym_calc_param`, `P/component/voltage_sensor.hpp` lines 129-149: phasors if all angles are given,
otherwise magnitudes; `none` if a measured magnitude is NaN. -/
noncomputable def voltageParam {τ : Symm} (s : VoltageValues τ) (σ : Symm) :
    Option ((Fin σ.phases → ℂ) ⊕ (Fin σ.phases → ℝ)) × Option Dev :=
  ((allGiven s.u).map fun u => match allGiven s.angle with
    | some θ => .inl (phasorParam τ σ u θ)
    | none => .inr (toCalc τ σ u), s.sigma.map Dev.square)

/-! ## Current sensors -/

/-- The electrical part of `CurrentSensorInput` and `CurrentSensorUpdate`, and the members of a `CurrentSensor`. -/
structure CurrentValues (τ : Symm) where
  i : Fin τ.phases → Option ℝ
  angle : Fin τ.phases → Option ℝ
  sigma : Option ℝ
  angleSigma : Option ℝ

/-- The constructor, `P/component/current_sensor.hpp` lines 90-97, for terminals of branches. -/
noncomputable def mkCurrent {τ : Symm} (uRated : ℝ) (v : CurrentValues τ) : CurrentValues τ where
  i := fun j => (v.i j).map fun x => 1 / baseCurrent uRated * x
  angle := v.angle
  sigma := v.sigma.map fun x => 1 / baseCurrent uRated * x
  angleSigma := v.angleSigma

/-- `CurrentSensor::update`, `P/component/current_sensor.hpp` lines 111-120. -/
noncomputable def updateCurrent {τ : Symm} (uRated : ℝ) (s v : CurrentValues τ) : CurrentValues τ where
  i := fun j => updateRealO (v.i j) (s.i j) (1 / baseCurrent uRated)
  angle := fun j => updateRealO (v.angle j) (s.angle j) 1
  sigma := updateRealO v.sigma s.sigma (1 / baseCurrent uRated)
  angleSigma := updateRealO v.angleSigma s.angleSigma 1

/-- A current sensor after a history of updates. -/
noncomputable def currentSensor {τ : Symm} (uRated : ℝ) (v : CurrentValues τ) (updates : List (CurrentValues τ)) : CurrentValues τ :=
  updates.foldl (updateCurrent uRated) (mkCurrent uRated v)

/-- `compute_decomposed_variance_from_polar`, `P/common/statistics.hpp` lines 152-167, one phase. -/
noncomputable def decomposedVariance (m c s vm va : ℝ) : ℝ × ℝ :=
  (vm * (c * c) + m * m * va * (s * s) + 0.5 * (m * m) * va * va * (c * c) + vm * va * (s * s),
   vm * (s * s) + m * m * va * (c * c) + 0.5 * (m * m) * va * va * (s * s) + vm * va * (c * c))

/-- `DecomposedComplexRandVar`: values and variances of the real and the imaginary part. -/
structure CurrentParam (σ : Symm) where
  re : Fin σ.phases → ℝ
  im : Fin σ.phases → ℝ
  reVariance : Fin σ.phases → ℝ
  imVariance : Fin σ.phases → ℝ

/-- The conversions of `PolarComplexRandVar`, `P/common/statistics.hpp` lines 196-249. -/
noncomputable def decompose (τ σ : Symm) (m θ : Fin τ.phases → ℝ) (vm va : ℝ) : CurrentParam σ :=
  match τ, σ with
  | .sym, .sym =>
    let v := decomposedVariance (m 0) (Real.cos (θ 0)) (Real.sin (θ 0)) vm va
    ⟨fun _ => m 0 * Real.cos (θ 0), fun _ => m 0 * Real.sin (θ 0), fun _ => v.1, fun _ => v.2⟩
  | .asym, .asym =>
    let v : Fin 3 → ℝ × ℝ := fun j => decomposedVariance (m j) (Real.cos (θ j)) (Real.sin (θ j)) vm va
    ⟨fun j => m j * Real.cos (θ j), fun j => m j * Real.sin (θ j), fun j => (v j).1, fun j => (v j).2⟩
  | .sym, .asym =>
    let unit := spread .asym (Complex.exp (Complex.I * θ 0))
    let v := fun j => decomposedVariance (m 0) (unit j).re (unit j).im vm va
    ⟨fun j => (m 0 * unit j).re, fun j => (m 0 * unit j).im, fun j => (v j).1, fun j => (v j).2⟩
  | .asym, .sym =>
    let unit : Fin 3 → ℂ := fun j => Complex.exp (Complex.I * θ j)
    let rotated : Fin 3 → ℂ := ![unit 0, a * unit 1, a2 * unit 2]
    let value := posSeqOf fun j => m j * unit j
    let v : Fin 3 → ℝ × ℝ := fun j => decomposedVariance (m j) (rotated j).re (rotated j).im vm va
    ⟨fun _ => value.re, fun _ => value.im, fun _ => ((v 0).1 + (v 1).1 + (v 2).1) / 9, fun _ => ((v 0).2 + (v 1).2 + (v 2).2) / 9⟩

/-- `calc_decomposed_param`, `P/component/current_sensor.hpp` lines 145-150; `none` if a value is NaN. -/
noncomputable def currentParam {τ : Symm} (s : CurrentValues τ) (σ : Symm) : Option (CurrentParam σ) := do
  let m ← allGiven s.i
  let θ ← allGiven s.angle
  let sigma ← s.sigma
  let angleSigma ← s.angleSigma
  some (decompose τ σ m θ (sigma * sigma) (angleSigma * angleSigma))

end PGM.Sensor
