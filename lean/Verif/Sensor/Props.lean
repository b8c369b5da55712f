import Verif.Sensor.Lemmas

/-!
# Property C60: sensors are used with the value and the accuracy given

All theorems speak about a sensor with input `i` after any history `l` of updates, in any calculation; `latest` is what that history leaves
behind. Values and variances are compared in the units of the input.
-/

namespace PGM.Sensor

open PGM.PowerFlow PGM.Output PGM.Topology Finset

/-! ## Linear conversions -/

theorem sumOne (f : Fin Symm.sym.phases → ℝ) : ∑ p, f p = f 0 := Fin.sum_univ_one (f : Fin 1 → ℝ)

theorem sumThree (f : Fin Symm.asym.phases → ℝ) : ∑ p, f p = f 0 + f 1 + f 2 := Fin.sum_univ_three (f : Fin 3 → ℝ)

/-- The weight of each value in the used power. -/
noncomputable def powerWeight (τ σ : Symm) (j : Fin σ.phases) (k : Fin τ.phases) : ℝ :=
  match τ, σ with
  | .sym, .sym => 1
  | .sym, .asym => 1 / 3
  | .asym, .asym => if k = j then 1 else 0
  | .asym, .sym => 1

theorem usedPower_eq (τ σ : Symm) (j : Fin σ.phases) :
    (fun x => usedPower τ σ x j) = fun x => ∑ k, powerWeight τ σ j k * x k := by
  funext x
  cases τ <;> cases σ
  · simp [usedPower, powerWeight, sumOne]
  · simp only [usedPower, powerWeight, sumOne]
    ring
  · simp [usedPower, powerWeight, sumThree]
  · simp [usedPower, powerWeight]

/-- The weight of each value in the used magnitude. -/
noncomputable def voltageWeight (τ σ : Symm) (j : Fin σ.phases) (k : Fin τ.phases) : ℝ :=
  match τ, σ with
  | .sym, .sym => 1
  | .sym, .asym => 1 / √3
  | .asym, .asym => if k = j then 1 else 0
  | .asym, .sym => √3 / 3

theorem usedMagnitude_eq (τ σ : Symm) (j : Fin σ.phases) :
    (fun x => usedMagnitude τ σ x j) = fun x => ∑ k, voltageWeight τ σ j k * x k := by
  funext x
  cases τ <;> cases σ
  · simp [usedMagnitude, voltageWeight, sumOne]
  · simp only [usedMagnitude, voltageWeight, sumOne]
    ring
  · simp only [usedMagnitude, voltageWeight, sumThree]
    ring
  · simp [usedMagnitude, voltageWeight]

/-- How much larger than the propagated one a variance is if an asymmetric sensor takes part in a symmetric calculation. -/
noncomputable def excess : Symm → Symm → ℝ
  | .asym, .sym => 3
  | _, _ => 1

theorem basePower_unit (σ : Symm) : basePower σ = unitPower σ := by cases σ <;> rfl

theorem unitPower_ne (σ : Symm) : unitPower σ ≠ 0 := by cases σ <;> norm_num [unitPower]

theorem toCalc_power (τ σ : Symm) (c : ℝ) (x y : Fin τ.phases → ℝ) (h : ∀ k, x k = c * (1 / unitPower τ) * y k) (j : Fin σ.phases) :
    unitPower σ * toCalc τ σ x j = c * usedPower τ σ y j := by
  cases τ <;> cases σ <;> simp only [toCalc, usedPower, h, unitPower] <;> ring

theorem toCalc_variance (τ σ : Symm) (x v w : Fin τ.phases → ℝ) (h : ∀ k, v k = w k * (1 / unitPower τ) ^ 2) (j : Fin σ.phases) :
    unitPower σ ^ 2 * toCalc τ σ v j = excess τ σ * propagated (fun x => usedPower τ σ x j) x w := by
  rw [usedPower_eq, propagated_linear]
  cases τ <;> cases σ
  · simp only [toCalc, h, unitPower, excess, powerWeight, sumOne]
    ring
  · simp only [toCalc, h, unitPower, excess, powerWeight, sumOne]
    ring
  · simp only [toCalc, h, unitPower, excess, powerWeight, sumThree]
    ring
  · simp only [toCalc, h, unitPower, excess, powerWeight, ite_pow, mul_ite, one_pow, mul_one, zero_pow two_ne_zero, mul_zero,
      sum_ite_eq', mem_univ, if_true]
    ring

/-! ## Power sensors -/

section power

variable {τ : Symm} (t : Terminal) (i : PowerInput τ) (l : List (PowerInput τ)) (σ : Symm)

theorem calcParam_p (s : PowerSensor τ) : (s.calcParam σ).p = toCalc τ σ s.p := by
  unfold PowerSensor.calcParam; split <;> rfl

theorem calcParam_q (s : PowerSensor τ) : (s.calcParam σ).q = toCalc τ σ s.q := by
  unfold PowerSensor.calcParam; split <;> rfl

/-- C60. A power sensor is used with the last active power given, in its reference direction, and 0 W if none was ever given: the total in a
symmetric calculation, that of each phase in an asymmetric one. -/
theorem power_active (j : Fin σ.phases) : unitPower σ * ((powerSensor t i l).calcParam σ).p j =
    reference t * usedPower τ σ (fun k => (latest (i.p k) (l.map (·.p k))).getD 0) j := by
  rw [calcParam_p]
  apply toCalc_power
  intro k
  rw [power_p, direction_reference, invBase, basePower_unit]
  cases latest (i.p k) (l.map (·.p k)) <;> simp

/-- C60. The same for reactive power. -/
theorem power_reactive (j : Fin σ.phases) : unitPower σ * ((powerSensor t i l).calcParam σ).q j =
    reference t * usedPower τ σ (fun k => (latest (i.q k) (l.map (·.q k))).getD 0) j := by
  rw [calcParam_q]
  apply toCalc_power
  intro k
  rw [power_q, direction_reference, invBase, basePower_unit]
  cases latest (i.q k) (l.map (·.q k)) <;> simp

theorem normal_scaled (x : ℝ) (hx : x ≠ 0) : normal ((some (Dev.fin x)).map (·.scale (invBase τ))) = some (x * invBase τ) := by
  have : x * invBase τ ≠ 0 := mul_ne_zero hx (by rw [invBase, basePower_unit]; exact one_div_ne_zero (unitPower_ne τ))
  simp [normal, Dev.scale, this]

variable {σ} in
theorem power_separate (sp sq : Fin τ.phases → ℝ) (hp : ∀ k, latest (i.pSigma k) (l.map (·.pSigma k)) = some (.fin (sp k)))
    (hq : ∀ k, latest (i.qSigma k) (l.map (·.qSigma k)) = some (.fin (sq k))) (hp0 : ∀ k, sp k ≠ 0) (hq0 : ∀ k, sq k ≠ 0)
    (x : Fin τ.phases → ℝ) (j : Fin σ.phases) : ∃ v w,
      ((powerSensor t i l).calcParam σ).pVariance j = some (.fin v) ∧ ((powerSensor t i l).calcParam σ).qVariance j = some (.fin w) ∧
      unitPower σ ^ 2 * v = excess τ σ * propagated (fun x => usedPower τ σ x j) x (fun k => sp k ^ 2) ∧
      unitPower σ ^ 2 * w = excess τ σ * propagated (fun x => usedPower τ σ x j) x (fun k => sq k ^ 2) := by
  have ep : allGiven (fun k => normal ((powerSensor t i l).pSigma k)) = some fun k => sp k * invBase τ :=
    allGiven_some _ _ fun k => by rw [power_pSigma, hp]; exact normal_scaled _ (hp0 k)
  have eq : allGiven (fun k => normal ((powerSensor t i l).qSigma k)) = some fun k => sq k * invBase τ :=
    allGiven_some _ _ fun k => by rw [power_qSigma, hq]; exact normal_scaled _ (hq0 k)
  refine ⟨_, _, by rw [PowerSensor.calcParam, ep, eq], by rw [PowerSensor.calcParam, ep, eq], ?_, ?_⟩
  · exact toCalc_variance τ σ x _ _ (fun k => by rw [invBase, basePower_unit]; ring) j
  · exact toCalc_variance τ σ x _ _ (fun k => by rw [invBase, basePower_unit]; ring) j

/-- C60. With standard deviations of active and reactive power, both are used with the variances that follow from them for the used power,
unless an asymmetric sensor takes part in a symmetric calculation. -/
theorem power_accuracy_partial (sp sq : Fin τ.phases → ℝ) (hp : ∀ k, latest (i.pSigma k) (l.map (·.pSigma k)) = some (.fin (sp k)))
    (hq : ∀ k, latest (i.qSigma k) (l.map (·.qSigma k)) = some (.fin (sq k))) (hp0 : ∀ k, sp k ≠ 0) (hq0 : ∀ k, sq k ≠ 0)
    (h : ¬ (τ = .asym ∧ σ = .sym)) (x : Fin τ.phases → ℝ) (j : Fin σ.phases) : ∃ v w,
      ((powerSensor t i l).calcParam σ).pVariance j = some (.fin v) ∧ ((powerSensor t i l).calcParam σ).qVariance j = some (.fin w) ∧
      unitPower σ ^ 2 * v = propagated (fun x => usedPower τ σ x j) x (fun k => sp k ^ 2) ∧
      unitPower σ ^ 2 * w = propagated (fun x => usedPower τ σ x j) x (fun k => sq k ^ 2) := by
  have := power_separate t i l sp sq hp hq hp0 hq0 x j
  have e : excess τ σ = 1 := by cases τ <;> cases σ <;> simp [excess] at *
  rwa [e, one_mul, one_mul] at this

/-- C60. The variance of an apparent power is shared by active and reactive power. -/
theorem power_apparent_partial (s : ℝ) (hp : ∀ k, latest (i.pSigma k) (l.map (·.pSigma k)) = none)
    (hs : latest i.powerSigma (l.map (·.powerSigma)) = some (.fin s))
    (h : ¬ (τ = .asym ∧ σ = .sym)) (x : Fin τ.phases → ℝ) (j : Fin σ.phases) : ∃ v,
      ((powerSensor t i l).calcParam σ).pVariance j = some (.fin v) ∧ ((powerSensor t i l).calcParam σ).qVariance j = some (.fin v) ∧
      unitPower σ ^ 2 * v = propagated (fun x => usedPower τ σ x j) x (fun _ => s ^ 2 / 2) := by
  have ep : allGiven (fun k => normal ((powerSensor t i l).pSigma k)) = none := by
    apply allGiven_none _ (0 : Fin τ.phases)
    rw [power_pSigma, hp]; rfl
  have en : ∀ k, (powerSensor t i l).pSigma k = none := fun k => by rw [power_pSigma, hp]; rfl
  have eo : otherVariance (powerSensor t i l) = some (.fin (s * invBase τ * (s * invBase τ) / 2)) := by
    rw [otherVariance, if_pos en, power_sigma, hs]; rfl
  refine ⟨_, by rw [PowerSensor.calcParam, ep]; exact eo, by rw [PowerSensor.calcParam, ep]; exact eo, ?_⟩
  have := toCalc_variance τ σ x (fun _ => s * invBase τ * (s * invBase τ) / 2) (fun _ => s ^ 2 / 2)
    (fun k => by rw [invBase, basePower_unit]; ring) j
  have e : excess τ σ = 1 := by cases τ <;> cases σ <;> simp [excess] at *
  rw [e, one_mul] at this
  rw [← this]
  congr 1
  cases τ <;> cases σ <;> simp only [toCalc] <;> ring

/-- C60, the violation. In a symmetric calculation an asymmetric power sensor is used with three times the variance that the total of the three
phases has. -/
theorem power_accuracy_wrong (t : Terminal) (i : PowerInput .asym) (l : List (PowerInput .asym)) (sp sq : Fin Symm.asym.phases → ℝ)
    (hp : ∀ k, latest (i.pSigma k) (l.map (·.pSigma k)) = some (.fin (sp k)))
    (hq : ∀ k, latest (i.qSigma k) (l.map (·.qSigma k)) = some (.fin (sq k))) (hp0 : ∀ k, sp k ≠ 0) (hq0 : ∀ k, sq k ≠ 0)
    (x : Fin Symm.asym.phases → ℝ) : ∃ v w,
      ((powerSensor t i l).calcParam .sym).pVariance 0 = some (.fin v) ∧
      ((powerSensor t i l).calcParam .sym).qVariance 0 = some (.fin w) ∧
      unitPower .sym ^ 2 * v = 3 * propagated (fun x => usedPower .asym .sym x 0) x (fun k => sp k ^ 2) ∧
      unitPower .sym ^ 2 * w = 3 * propagated (fun x => usedPower .asym .sym x 0) x (fun k => sq k ^ 2) ∧
      unitPower .sym ^ 2 * v ≠ propagated (fun x => usedPower .asym .sym x 0) x (fun k => sp k ^ 2) := by
  obtain ⟨v, w, h1, h2, h3, h4⟩ := power_separate (σ := .sym) t i l sp sq hp hq hp0 hq0 x 0
  refine ⟨v, w, h1, h2, h3, h4, ?_⟩
  rw [h3, usedPower_eq, propagated_linear]
  have := hp0 0
  have h0 : 0 < sp 0 ^ 2 := by positivity
  simp only [sumThree, excess, powerWeight]
  intro h
  nlinarith [sq_nonneg (sp 1), sq_nonneg (sp 2)]

/-- A standard deviation with which a measurement cannot be used. -/
def Unusable (d : Option Dev) : Prop := d = none ∨ d = some .inf ∨ d = some (.fin 0)

/-- C60. One infinite (or zero, or missing) standard deviation disables the whole measurement if any standard deviation of the active power is
given. -/
theorem power_disabled (k : Fin τ.phases) (hk : Unusable (latest (i.pSigma k) (l.map (·.pSigma k))) ∨
      Unusable (latest (i.qSigma k) (l.map (·.qSigma k))))
    (k' : Fin τ.phases) (hg : latest (i.pSigma k') (l.map (·.pSigma k')) ≠ none) (j : Fin σ.phases) :
    ((powerSensor t i l).calcParam σ).pVariance j = some .inf ∧ ((powerSensor t i l).calcParam σ).qVariance j = some .inf := by
  have un : ∀ d : Option Dev, Unusable d → normal (d.map (·.scale (invBase τ))) = none := by
    rintro d (rfl | rfl | rfl) <;> simp [normal, Dev.scale]
  have eo : otherVariance (powerSensor t i l) = some .inf := by
    rw [otherVariance, if_neg]
    intro hn
    have := hn k'
    rw [power_pSigma, Option.map_eq_none_iff] at this
    exact hg this
  unfold PowerSensor.calcParam
  rcases hk with hk | hk
  · rw [allGiven_none (fun k => normal ((powerSensor t i l).pSigma k)) k (by rw [power_pSigma]; exact un _ hk)]
    exact ⟨eo, eo⟩
  · rw [allGiven_none (fun k => normal ((powerSensor t i l).qSigma k)) k (by rw [power_qSigma]; exact un _ hk)]
    cases allGiven (fun k => normal ((powerSensor t i l).pSigma k)) <;> exact ⟨eo, eo⟩

/-- C60. An infinite standard deviation of the apparent power disables the whole measurement. -/
theorem power_apparent_disabled (hp : ∀ k, latest (i.pSigma k) (l.map (·.pSigma k)) = none)
    (hs : latest i.powerSigma (l.map (·.powerSigma)) = some .inf) (j : Fin σ.phases) :
    ((powerSensor t i l).calcParam σ).pVariance j = some .inf ∧ ((powerSensor t i l).calcParam σ).qVariance j = some .inf := by
  have ep : allGiven (fun k => normal ((powerSensor t i l).pSigma k)) = none := by
    apply allGiven_none _ (0 : Fin τ.phases)
    rw [power_pSigma, hp]; rfl
  have eo : otherVariance (powerSensor t i l) = some .inf := by
    rw [otherVariance, if_pos fun k => by rw [power_pSigma, hp]; rfl, power_sigma, hs]; rfl
  unfold PowerSensor.calcParam
  rw [ep]
  exact ⟨eo, eo⟩

/-- A sensor at a load whose power is given first and corrected later; the correction gives the standard deviations too. -/
noncomputable def loadSensor : PowerInput .sym := ⟨fun _ => some 3000000, fun _ => none, some (.fin 60000), fun _ => none, fun _ => none⟩

/-- The correction: 4.5 MW ± 30 kW, 1 Mvar ± 15 kvar. -/
noncomputable def loadCorrection : PowerInput .sym :=
  ⟨fun _ => some 4500000, fun _ => some 1000000, none, fun _ => some (.fin 30000), fun _ => some (.fin 15000)⟩

/-- The corrected sensor in an asymmetric calculation: a load of 1.5 MW ± 10 kW and a third of 1 Mvar ± 5 kvar in each phase. -/
example (j : Fin Symm.asym.phases) : unitPower .asym * ((powerSensor .load loadSensor [loadCorrection]).calcParam .asym).p j = -1500000 ∧
    unitPower .asym * ((powerSensor .load loadSensor [loadCorrection]).calcParam .asym).q j = -1000000 / 3 ∧
    ∃ v w, ((powerSensor .load loadSensor [loadCorrection]).calcParam .asym).pVariance j = some (.fin v) ∧
      ((powerSensor .load loadSensor [loadCorrection]).calcParam .asym).qVariance j = some (.fin w) ∧
      unitPower .asym ^ 2 * v = 10000 ^ 2 ∧ unitPower .asym ^ 2 * w = 5000 ^ 2 := by
  refine ⟨?_, ?_, ?_⟩
  · refine (power_active .load loadSensor [loadCorrection] .asym j).trans ?_
    simp [latest, loadSensor, loadCorrection, reference, usedPower]; norm_num
  · refine (power_reactive .load loadSensor [loadCorrection] .asym j).trans ?_
    simp [latest, loadSensor, loadCorrection, reference, usedPower]; norm_num
  · obtain ⟨v, w, h1, h2, h3, h4⟩ := power_accuracy_partial .load loadSensor [loadCorrection] .asym (fun _ => 30000) (fun _ => 15000)
      (fun _ => by simp [latest, loadCorrection]) (fun _ => by simp [latest, loadCorrection]) (fun _ => by norm_num) (fun _ => by norm_num)
      (by simp) (fun _ => 0) j
    refine ⟨v, w, h1, h2, h3.trans ?_, h4.trans ?_⟩
    · rw [usedPower_eq, propagated_linear, sumOne]; norm_num [powerWeight]
    · rw [usedPower_eq, propagated_linear, sumOne]; norm_num [powerWeight]

/-- The sensor before the correction: 60 kVA are shared by active and reactive power. -/
example : ∃ v, ((powerSensor .load loadSensor []).calcParam .sym).pVariance 0 = some (.fin v) ∧ unitPower .sym ^ 2 * v = 60000 ^ 2 / 2 := by
  obtain ⟨v, h1, _, h3⟩ := power_apparent_partial .load loadSensor [] .sym 60000 (fun _ => by simp [latest, loadSensor])
    (by simp [latest, loadSensor]) (by simp) (fun _ => 0) 0
  refine ⟨v, h1, h3.trans ?_⟩
  rw [usedPower_eq, propagated_linear, sumOne]; norm_num [powerWeight]

/-- A sensor of three phases whose second phase is switched off. -/
noncomputable def phaseSensor (b : Dev) : PowerInput .asym :=
  ⟨fun _ => some 3000000, fun _ => some 0, none, fun k => if k = 1 then some b else some (.fin 10000), fun _ => some (.fin 10000)⟩

example : ((powerSensor .branchFrom (phaseSensor .inf) []).calcParam .sym).pVariance 0 = some .inf :=
  (power_disabled .branchFrom (phaseSensor .inf) [] .sym 1 (.inl (.inr (.inl (by simp [latest, phaseSensor])))) 0
    (by simp only [latest, phaseSensor]; split <;> simp) 0).1

/-- Three phases with 10 kW each: the total has 10√3 kW, but the calculation uses 30 kW. -/
example : ∃ v, ((powerSensor .branchFrom (phaseSensor (.fin 10000)) []).calcParam .sym).pVariance 0 = some (.fin v) ∧
    unitPower .sym ^ 2 * v = 30000 ^ 2 ∧ propagated (fun x => usedPower .asym .sym x 0) (fun _ => 0) (fun _ => 10000 ^ 2) = 3 * 10000 ^ 2 := by
  obtain ⟨v, w, h1, _, h3, _, _⟩ := power_accuracy_wrong .branchFrom (phaseSensor (.fin 10000)) [] (fun _ => 10000) (fun _ => 10000)
    (fun k => by simp [latest, phaseSensor]) (fun _ => by simp [latest, phaseSensor]) (fun _ => by norm_num) (fun _ => by norm_num)
    (fun _ => 0)
  have h : propagated (fun x => usedPower .asym .sym x 0) (fun _ => 0) (fun _ => 10000 ^ 2) = 3 * 10000 ^ 2 := by
    rw [usedPower_eq, propagated_linear, sumThree]; norm_num [powerWeight]
  exact ⟨v, h1, by rw [h3, h]; norm_num, h⟩

end power

/-! ## Voltage sensors -/

section voltage

variable {τ : Symm} (uRated : ℝ) (i : VoltageValues τ) (l : List (VoltageValues τ)) (σ : Symm)

theorem norm_unit (τ : Symm) : uRated * uScale τ = unitVoltage uRated τ := by
  cases τ <;> simp [uScale, unitVoltage, div_eq_mul_inv]

theorem sqrt3_ne : (√3 : ℝ) ≠ 0 := Real.sqrt_ne_zero'.mpr (by norm_num)

theorem sqrt3_inv : (√3 : ℝ)⁻¹ = √3 / 3 := by
  rw [inv_eq_one_div, div_eq_div_iff sqrt3_ne (by norm_num), Real.mul_self_sqrt (by norm_num)]; ring

/-- C60. If all magnitudes and angles are given, a voltage sensor is used with the phasors they describe. -/
theorem voltage_phasor (hr : uRated ≠ 0) (u θ : Fin τ.phases → ℝ) (hu : ∀ k, latest (i.u k) (l.map (·.u k)) = some (u k))
    (hθ : ∀ k, latest (i.angle k) (l.map (·.angle k)) = some (θ k)) : ∃ z, (voltageParam (voltageSensor uRated i l) σ).1 = some (.inl z) ∧
      ∀ j, unitVoltage uRated σ * z j = usedPhasor τ σ u θ j := by
  have eu : allGiven (voltageSensor uRated i l).u = some fun k => invNorm τ uRated * u k :=
    allGiven_some _ _ fun k => by rw [voltage_u, hu]; rfl
  have eθ : allGiven (voltageSensor uRated i l).angle = some θ := allGiven_some _ _ fun k => by rw [voltage_angle, hθ]
  refine ⟨_, by rw [voltageParam, eu, eθ]; rfl, fun j => ?_⟩
  have hr' : (uRated : ℂ) ≠ 0 := by exact_mod_cast hr
  have h3 : ((√3 : ℝ) : ℂ) ≠ 0 := by exact_mod_cast sqrt3_ne
  have hi : ((√3 : ℝ) : ℂ)⁻¹ = (√3 : ℝ) / 3 := by exact_mod_cast sqrt3_inv
  cases τ <;> cases σ
  · simp only [phasorParam, usedPhasor, invNorm, norm_unit, unitVoltage, mul_comm Complex.I]
    push_cast
    field_simp
  · have e : Complex.exp ((θ 0 - lag j : ℝ) * Complex.I) = _ := exp_lag (θ 0) j
    have h : ∀ c e : ℂ, spread .asym (c * e) j = c * spread .asym e j := by
      intro c e
      revert j; show ∀ j : Fin 3, _; intro j _
      fin_cases j <;> simp [spread, mul_assoc]
    simp only [phasorParam, usedPhasor, e, h, invNorm, norm_unit, unitVoltage]
    push_cast
    field_simp
  · have e0 : Complex.exp ((θ 0 + lag 0 : ℝ) * Complex.I) = 1 * Complex.exp (Complex.I * θ 0) := exp_lead (θ 0) 0
    have e1 : Complex.exp ((θ 1 + lag 1 : ℝ) * Complex.I) = a * Complex.exp (Complex.I * θ 1) := exp_lead (θ 1) 1
    have e2 : Complex.exp ((θ 2 + lag 2 : ℝ) * Complex.I) = a2 * Complex.exp (Complex.I * θ 2) := exp_lead (θ 2) 2
    have hz : phasorParam .asym .sym (fun k => invNorm .asym uRated * u k) θ j =
        (((invNorm .asym uRated * u 0 : ℝ) : ℂ) * Complex.exp (Complex.I * θ 0) +
          a * (((invNorm .asym uRated * u 1 : ℝ) : ℂ) * Complex.exp (Complex.I * θ 1)) +
          a2 * (((invNorm .asym uRated * u 2 : ℝ) : ℂ) * Complex.exp (Complex.I * θ 2))) / 3 := rfl
    rw [hz]
    simp only [usedPhasor]
    rw [e0, e1, e2]
    simp only [invNorm, norm_unit, unitVoltage]
    push_cast
    field_simp
  · simp only [phasorParam, usedPhasor, invNorm, norm_unit, unitVoltage, mul_comm Complex.I]
    push_cast
    field_simp

/-- C60. If an angle is missing, only the magnitude is used, in an asymmetric sensor for a symmetric calculation the mean of the three. -/
theorem voltage_magnitude (hr : uRated ≠ 0) (u : Fin τ.phases → ℝ) (hu : ∀ k, latest (i.u k) (l.map (·.u k)) = some (u k))
    (k : Fin τ.phases) (hk : latest (i.angle k) (l.map (·.angle k)) = none) :
    ∃ m, (voltageParam (voltageSensor uRated i l) σ).1 = some (.inr m) ∧ ∀ j, unitVoltage uRated σ * m j = usedMagnitude τ σ u j := by
  have eu : allGiven (voltageSensor uRated i l).u = some fun k => invNorm τ uRated * u k :=
    allGiven_some _ _ fun k => by rw [voltage_u, hu]; rfl
  have eθ : allGiven (voltageSensor uRated i l).angle = none := allGiven_none _ k (by rw [voltage_angle, hk])
  refine ⟨_, by rw [voltageParam, eu, eθ]; rfl, fun j => ?_⟩
  have h3 := sqrt3_ne
  cases τ <;> cases σ <;> simp only [toCalc, usedMagnitude, invNorm, norm_unit, unitVoltage] <;> field_simp

/-- C60. A magnitude that was never given stays missing. -/
theorem voltage_missing (k : Fin τ.phases) (hk : latest (i.u k) (l.map (·.u k)) = none) :
    (voltageParam (voltageSensor uRated i l) σ).1 = none := by
  have eu : allGiven (voltageSensor uRated i l).u = none := allGiven_none _ k (by rw [voltage_u, hk]; rfl)
  rw [voltageParam, eu]; rfl

/-- The variance of a voltage, for all symmetries. -/
theorem voltage_variance (hr : uRated ≠ 0) (s : ℝ) (hs : latest i.sigma (l.map (·.sigma)) = some (.fin s)) (x : Fin τ.phases → ℝ)
    (j : Fin σ.phases) : ∃ v, (voltageParam (voltageSensor uRated i l) σ).2 = some (.fin v) ∧
      unitVoltage uRated σ ^ 2 * v = excess τ σ * propagated (fun x => usedMagnitude τ σ x j) x (fun _ => s ^ 2) := by
  refine ⟨s * invNorm τ uRated * (s * invNorm τ uRated), by rw [voltageParam, voltage_sigma, hs]; rfl, ?_⟩
  rw [usedMagnitude_eq, propagated_linear]
  have h3 : (√3 : ℝ) ^ 2 = 3 := Real.sq_sqrt (by norm_num)
  have h3' := sqrt3_ne
  cases τ <;> cases σ
  · simp only [excess, invNorm, norm_unit, unitVoltage, sumOne, voltageWeight]
    field_simp
  · simp only [excess, invNorm, norm_unit, unitVoltage, sumOne, voltageWeight]
    field_simp
  · simp only [excess, invNorm, norm_unit, unitVoltage, sumThree, voltageWeight]
    field_simp
    ring
  · simp only [excess, invNorm, norm_unit, unitVoltage, voltageWeight, ite_pow, mul_ite, one_pow, mul_one, zero_pow two_ne_zero, mul_zero,
      sum_ite_eq', mem_univ, if_true]
    field_simp

/-- C60. The voltage is used with the variance that follows for the used magnitude, unless an asymmetric sensor takes part in a symmetric
calculation. -/
theorem voltage_accuracy_partial (hr : uRated ≠ 0) (s : ℝ) (hs : latest i.sigma (l.map (·.sigma)) = some (.fin s))
    (h : ¬ (τ = .asym ∧ σ = .sym)) (x : Fin τ.phases → ℝ)
    (j : Fin σ.phases) : ∃ v, (voltageParam (voltageSensor uRated i l) σ).2 = some (.fin v) ∧
      unitVoltage uRated σ ^ 2 * v = propagated (fun x => usedMagnitude τ σ x j) x (fun _ => s ^ 2) := by
  have := voltage_variance uRated i l σ hr s hs x j
  have e : excess τ σ = 1 := by cases τ <;> cases σ <;> simp [excess] at *
  rwa [e, one_mul] at this

/-- C60, the violation. In a symmetric calculation an asymmetric voltage sensor is used with three times the variance of the mean of its
magnitudes. -/
theorem voltage_accuracy_wrong (hr : uRated ≠ 0) (i : VoltageValues .asym) (l : List (VoltageValues .asym)) (s : ℝ) (hs0 : s ≠ 0)
    (hs : latest i.sigma (l.map (·.sigma)) = some (.fin s)) (x : Fin Symm.asym.phases → ℝ) :
    ∃ v, (voltageParam (voltageSensor uRated i l) .sym).2 = some (.fin v) ∧
      unitVoltage uRated .sym ^ 2 * v = 3 * propagated (fun x => usedMagnitude .asym .sym x 0) x (fun _ => s ^ 2) ∧
      unitVoltage uRated .sym ^ 2 * v ≠ propagated (fun x => usedMagnitude .asym .sym x 0) x (fun _ => s ^ 2) := by
  obtain ⟨v, h1, h2⟩ := voltage_variance uRated i l .sym hr s hs x 0
  refine ⟨v, h1, h2, ?_⟩
  rw [h2, usedMagnitude_eq, propagated_linear]
  have h3 := sqrt3_ne
  have : 0 < s ^ 2 * (√3 / 3) ^ 2 := by positivity
  simp only [sumThree, excess, voltageWeight]
  intro h
  linarith

/-- C60. An infinite standard deviation disables the measurement. -/
theorem voltage_disabled (hs : latest i.sigma (l.map (·.sigma)) = some .inf) :
    (voltageParam (voltageSensor uRated i l) σ).2 = some .inf := by
  rw [voltageParam, voltage_sigma, hs]; rfl

/-- 400 V between lines with a corrected angle. -/
noncomputable def busSensor : VoltageValues .sym := ⟨fun _ => some 390, fun _ => none, some (.fin 6)⟩

/-- In an asymmetric calculation phase b is 400/√3 V at -90°, if 400 V at 30° are measured. -/
example : ∃ z, (voltageParam (voltageSensor 400 busSensor [⟨fun _ => some 400, fun _ => some (Real.pi / 6), none⟩]) .asym).1 = some (.inl z) ∧
    unitVoltage 400 .asym * z 1 = (400 / √3 : ℝ) * Complex.exp ((Real.pi / 6 - 2 * Real.pi / 3 : ℝ) * Complex.I) ∧
    ∃ v, (voltageParam (voltageSensor 400 busSensor [⟨fun _ => some 400, fun _ => some (Real.pi / 6), none⟩]) .asym).2 = some (.fin v) ∧
      unitVoltage 400 .asym ^ 2 * v = 12 := by
  obtain ⟨z, h1, h2⟩ := voltage_phasor 400 busSensor [⟨fun _ => some 400, fun _ => some (Real.pi / 6), none⟩] .asym (by norm_num)
    (fun _ => 400) (fun _ => Real.pi / 6) (fun _ => by simp [latest]) (fun _ => by simp [latest])
  obtain ⟨v, h3, h4⟩ := voltage_accuracy_partial 400 busSensor [⟨fun _ => some 400, fun _ => some (Real.pi / 6), none⟩] .asym (by norm_num) 6
    (by simp [latest, busSensor]) (by simp) (fun _ => 400) 1
  refine ⟨z, h1, (h2 1).trans ?_, v, h3, h4.trans ?_⟩
  · have : lag 1 = 2 * Real.pi / 3 := by simp [lag]
    show _ * Complex.exp ((Real.pi / 6 - lag 1 : ℝ) * Complex.I) = _
    rw [this]
  · rw [usedMagnitude_eq, propagated_linear, sumOne]
    have h3 : (√3 : ℝ) ^ 2 = 3 := Real.sq_sqrt (by norm_num)
    simp only [voltageWeight, div_pow, h3]
    norm_num

/-- Without angle, the mean of three magnitudes to ground. -/
example : ∃ m, (voltageParam (voltageSensor 400 (⟨fun k => some (230 + (k : ℕ)), fun _ => none, some .inf⟩ : VoltageValues .asym) []) .sym).1 =
    some (.inr m) ∧ unitVoltage 400 .sym * m 0 = √3 * 231 := by
  obtain ⟨m, h1, h2⟩ := voltage_magnitude 400 (⟨fun k => some (230 + (k : ℕ)), fun _ => none, some .inf⟩ : VoltageValues .asym) [] .sym
    (by norm_num) (fun k => 230 + (k : ℕ)) (fun _ => by simp [latest]) 0 (by simp [latest])
  refine ⟨m, h1, (h2 0).trans ?_⟩
  show √3 * ((230 + ((0 : ℕ) : ℝ) + (230 + ((1 : ℕ) : ℝ)) + (230 + ((2 : ℕ) : ℝ))) / 3) = _
  norm_num

end voltage

/-! ## Current sensors -/

section current

variable {τ : Symm} (uRated : ℝ) (v : CurrentValues τ) (l : List (CurrentValues τ)) (σ : Symm)

theorem base_unit : baseCurrent uRated = unitCurrent uRated := by rw [baseCurrent, unitCurrent, div_div, mul_comm]

theorem factor_re (z : ℂ) (θ : ℝ) : (z * Complex.exp (Complex.I * θ)).re = z.re * Real.cos θ - z.im * Real.sin θ := by
  rw [mul_comm Complex.I, Complex.mul_re, Complex.exp_ofReal_mul_I_re, Complex.exp_ofReal_mul_I_im]

theorem factor_im (z : ℂ) (θ : ℝ) : (z * Complex.exp (Complex.I * θ)).im = z.im * Real.cos θ + z.re * Real.sin θ := by
  rw [mul_comm Complex.I, Complex.mul_im, Complex.exp_ofReal_mul_I_re, Complex.exp_ofReal_mul_I_im]; ring

/-- The model in terms of the factors of the phasors. -/
theorem decompose_eq (m θ : Fin τ.phases → ℝ) (vm va : ℝ) (j : Fin σ.phases) :
    (decompose τ σ m θ vm va).re j = ∑ p, m p * (factor τ σ j p * Complex.exp (Complex.I * θ p)).re ∧
    (decompose τ σ m θ vm va).im j = ∑ p, m p * (factor τ σ j p * Complex.exp (Complex.I * θ p)).im ∧
    (decompose τ σ m θ vm va).reVariance j = ∑ p,
      (vm * (factor τ σ j p * Complex.exp (Complex.I * θ p)).re ^ 2 +
       va * m p ^ 2 * (factor τ σ j p * Complex.exp (Complex.I * θ p)).im ^ 2 +
       1 / 2 * va ^ 2 * m p ^ 2 * (factor τ σ j p * Complex.exp (Complex.I * θ p)).re ^ 2 +
       vm * va * (factor τ σ j p * Complex.exp (Complex.I * θ p)).im ^ 2) ∧
    (decompose τ σ m θ vm va).imVariance j = ∑ p,
      (vm * (factor τ σ j p * Complex.exp (Complex.I * θ p)).im ^ 2 +
       va * m p ^ 2 * (factor τ σ j p * Complex.exp (Complex.I * θ p)).re ^ 2 +
       1 / 2 * va ^ 2 * m p ^ 2 * (factor τ σ j p * Complex.exp (Complex.I * θ p)).im ^ 2 +
       vm * va * (factor τ σ j p * Complex.exp (Complex.I * θ p)).re ^ 2) := by
  have c : ∀ t : ℝ, (Complex.exp (Complex.I * t)).re = Real.cos t := fun t => by
    rw [mul_comm Complex.I, Complex.exp_ofReal_mul_I_re]
  have d : ∀ t : ℝ, (Complex.exp (Complex.I * t)).im = Real.sin t := fun t => by
    rw [mul_comm Complex.I, Complex.exp_ofReal_mul_I_im]
  cases τ <;> cases σ
  · simp only [sumOne, decompose, factor, one_mul, c, d, decomposedVariance]
    refine ⟨trivial, trivial, ?_, ?_⟩ <;> ring
  · have h : ∀ e : ℂ, spread .asym e j = spread .asym 1 j * e := by
      intro e
      revert j; show ∀ j : Fin 3, _; intro j
      fin_cases j <;> simp [spread, mul_comm]
    simp only [sumOne, decompose, factor, decomposedVariance]
    rw [h (Complex.exp _)]
    refine ⟨by simp, by simp, ?_, ?_⟩ <;> ring
  · generalize hA : (1 : ℂ) * Complex.exp (Complex.I * θ 0) = A
    generalize hB : a * Complex.exp (Complex.I * θ 1) = B
    generalize hC : a2 * Complex.exp (Complex.I * θ 2) = C
    have k0 : factor .asym .sym j 0 * Complex.exp (Complex.I * θ 0) = ((1 / 3 : ℝ) : ℂ) * A := by
      rw [← hA, ← mul_assoc]; congr 1; show (1 : ℂ) / 3 = _; push_cast; ring
    have k1 : factor .asym .sym j 1 * Complex.exp (Complex.I * θ 1) = ((1 / 3 : ℝ) : ℂ) * B := by
      rw [← hB, ← mul_assoc]; congr 1; show a / 3 = _; push_cast; ring
    have k2 : factor .asym .sym j 2 * Complex.exp (Complex.I * θ 2) = ((1 / 3 : ℝ) : ℂ) * C := by
      rw [← hC, ← mul_assoc]; congr 1; show a2 / 3 = _; push_cast; ring
    have hv : ((m 0 : ℂ) * Complex.exp (Complex.I * θ 0) + a * (m 1 * Complex.exp (Complex.I * θ 1)) +
        a2 * (m 2 * Complex.exp (Complex.I * θ 2))) / 3 =
        ((1 / 3 * m 0 : ℝ) : ℂ) * A + ((1 / 3 * m 1 : ℝ) : ℂ) * B + ((1 / 3 * m 2 : ℝ) : ℂ) * C := by
      rw [← hA, ← hB, ← hC]; push_cast; ring
    simp only [sumThree, k0, k1, k2, Complex.re_ofReal_mul, Complex.im_ofReal_mul]
    refine ⟨?_, ?_, ?_, ?_⟩
    · refine (congrArg Complex.re hv).trans ?_
      simp only [Complex.add_re, Complex.re_ofReal_mul]
      ring
    · refine (congrArg Complex.im hv).trans ?_
      simp only [Complex.add_im, Complex.im_ofReal_mul]
      ring
    · have : (decompose .asym .sym m θ vm va).reVariance j = ((decomposedVariance (m 0) A.re A.im vm va).1 +
          (decomposedVariance (m 1) B.re B.im vm va).1 + (decomposedVariance (m 2) C.re C.im vm va).1) / 9 := by
        rw [← hA, ← hB, ← hC, one_mul]; rfl
      rw [this]
      simp only [decomposedVariance]
      ring
    · have : (decompose .asym .sym m θ vm va).imVariance j = ((decomposedVariance (m 0) A.re A.im vm va).2 +
          (decomposedVariance (m 1) B.re B.im vm va).2 + (decomposedVariance (m 2) C.re C.im vm va).2) / 9 := by
        rw [← hA, ← hB, ← hC, one_mul]; rfl
      rw [this]
      simp only [decomposedVariance]
      ring
  · have h : ∀ g : Fin Symm.asym.phases → ℝ, (∀ p, p ≠ j → g p = 0) → ∑ p, g p = g j := fun g hg =>
      sum_eq_single j (fun p _ hp => hg p hp) (fun hj => absurd (mem_univ j) hj)
    have fo : ∀ p, p ≠ j → factor .asym .asym j p = 0 := fun p hp => if_neg hp
    have fj : factor .asym .asym j j = 1 := if_pos rfl
    refine ⟨?_, ?_, ?_, ?_⟩
    · refine Eq.trans ?_ (h _ fun p hp => by rw [fo p hp]; simp).symm
      rw [fj, one_mul, c]; rfl
    · refine Eq.trans ?_ (h _ fun p hp => by rw [fo p hp]; simp).symm
      rw [fj, one_mul, d]; rfl
    · refine Eq.trans ?_ (h _ fun p hp => by rw [fo p hp]; simp).symm
      rw [fj, one_mul, c, d]
      simp only [decompose, decomposedVariance]
      ring
    · refine Eq.trans ?_ (h _ fun p hp => by rw [fo p hp]; simp).symm
      rw [fj, one_mul, c, d]
      simp only [decompose, decomposedVariance]
      ring

/-- C60. If everything is given, a current sensor is used with the phasors it describes, and the real and imaginary parts have the variances
that follow from those of the magnitudes and angles. -/
theorem current_used (hr : uRated ≠ 0) (x : Fin τ.phases × Bool → ℝ) (s sθ : ℝ)
    (hi : ∀ k, latest (v.i k) (l.map (·.i k)) = some (x (k, false)))
    (hθ : ∀ k, latest (v.angle k) (l.map (·.angle k)) = some (x (k, true)))
    (hs : latest v.sigma (l.map (·.sigma)) = some s) (hsθ : latest v.angleSigma (l.map (·.angleSigma)) = some sθ) :
    ∃ c, currentParam (currentSensor uRated v l) σ = some c ∧ ∀ j,
      unitCurrent uRated * c.re j = (usedCurrent τ σ x j).re ∧ unitCurrent uRated * c.im j = (usedCurrent τ σ x j).im ∧
      unitCurrent uRated ^ 2 * c.reVariance j =
        propagated (fun x => (usedCurrent τ σ x j).re) x (fun k => if k.2 then sθ ^ 2 else s ^ 2) ∧
      unitCurrent uRated ^ 2 * c.imVariance j =
        propagated (fun x => (usedCurrent τ σ x j).im) x (fun k => if k.2 then sθ ^ 2 else s ^ 2) := by
  have hb : unitCurrent uRated ≠ 0 := div_ne_zero (by norm_num) (mul_ne_zero sqrt3_ne hr)
  have ei : allGiven (currentSensor uRated v l).i = some fun k => 1 / baseCurrent uRated * x (k, false) :=
    allGiven_some _ _ fun k => by rw [current_i, hi]; rfl
  have eθ : allGiven (currentSensor uRated v l).angle = some fun k => x (k, true) :=
    allGiven_some _ _ fun k => by rw [current_angle, hθ]
  refine ⟨_, by rw [currentParam, ei, eθ, current_sigma, current_angleSigma, hs, hsθ]; rfl, fun j => ?_⟩
  obtain ⟨h1, h2, h3, h4⟩ := decompose_eq σ (fun k => 1 / baseCurrent uRated * x (k, false)) (fun k => x (k, true))
    (1 / baseCurrent uRated * s * (1 / baseCurrent uRated * s)) (sθ * sθ) j
  refine ⟨?_, ?_, ?_, ?_⟩
  · rw [h1, show (usedCurrent τ σ x j).re = _ from congrFun (usedCurrent_re τ σ j) x, polarSum, mul_sum]
    refine sum_congr rfl fun p _ => ?_
    rw [factor_re, base_unit]
    field_simp
  · rw [h2, show (usedCurrent τ σ x j).im = _ from congrFun (usedCurrent_im τ σ j) x, polarSum, mul_sum]
    refine sum_congr rfl fun p _ => ?_
    rw [factor_im, base_unit]
    field_simp
    ring
  · rw [h3, usedCurrent_re, propagated_polar, mul_sum]
    refine sum_congr rfl fun p _ => ?_
    rw [factor_re, factor_im, base_unit]
    simp only [if_true, Bool.false_eq_true, if_false]
    field_simp
    ring
  · rw [h4, usedCurrent_im, propagated_polar, mul_sum]
    refine sum_congr rfl fun p _ => ?_
    rw [factor_re, factor_im, base_unit]
    simp only [if_true, Bool.false_eq_true, if_false]
    field_simp
    ring

/-- The documentation gives the variance of the real part as `σ² cos² θ + I² σ_θ² sin² θ` for a symmetric sensor in a symmetric calculation
(`/repo/docs/algorithms/se-algorithms.md` lines 142-150). What is used is larger by the terms of second order. -/
theorem current_second_order (hr : uRated ≠ 0) (v : CurrentValues .sym) (l : List (CurrentValues .sym)) (m θ s sθ : ℝ)
    (hi : latest (v.i 0) (l.map (·.i 0)) = some m) (hθ : latest (v.angle 0) (l.map (·.angle 0)) = some θ)
    (hs : latest v.sigma (l.map (·.sigma)) = some s) (hsθ : latest v.angleSigma (l.map (·.angleSigma)) = some sθ) :
    ∃ c, currentParam (currentSensor uRated v l) .sym = some c ∧
      unitCurrent uRated ^ 2 * c.reVariance 0 = s ^ 2 * Real.cos θ ^ 2 + m ^ 2 * sθ ^ 2 * Real.sin θ ^ 2 +
        (1 / 2 * m ^ 2 * sθ ^ 4 * Real.cos θ ^ 2 + s ^ 2 * sθ ^ 2 * Real.sin θ ^ 2) ∧
      unitCurrent uRated ^ 2 * c.imVariance 0 = s ^ 2 * Real.sin θ ^ 2 + m ^ 2 * sθ ^ 2 * Real.cos θ ^ 2 +
        (1 / 2 * m ^ 2 * sθ ^ 4 * Real.sin θ ^ 2 + s ^ 2 * sθ ^ 2 * Real.cos θ ^ 2) := by
  have hk : ∀ k : Fin Symm.sym.phases, k = 0 := fun k => Subsingleton.elim (α := Fin 1) _ _
  obtain ⟨c, h1, h2⟩ := current_used uRated v l .sym hr (fun k => if k.2 then θ else m) s sθ (fun k => by rw [hk k]; simpa using hi)
    (fun k => by rw [hk k]; simpa using hθ) hs hsθ
  obtain ⟨_, _, h3, h4⟩ := h2 0
  have f : factor .sym .sym 0 0 = 1 := rfl
  refine ⟨c, h1, h3.trans ?_, h4.trans ?_⟩
  · rw [usedCurrent_re, propagated_polar, sumOne, f]
    simp only [if_true, Bool.false_eq_true, if_false, Complex.one_re, Complex.one_im]
    ring
  · rw [usedCurrent_im, propagated_polar, sumOne, f]
    simp only [if_true, Bool.false_eq_true, if_false, Complex.one_re, Complex.one_im]
    ring

/-- Three phases, each with 10 A ± 1 A at 0 ± 0.1 rad: the variance of the real part of the positive sequence is `2.015 / 6` A². -/
example : ∃ c, currentParam (currentSensor 400 (⟨fun _ => some 10, fun _ => some 0, some 1, some 0.1⟩ : CurrentValues .asym) []) .sym = some c ∧
    unitCurrent 400 * c.re 0 = 0 ∧ unitCurrent 400 ^ 2 * c.reVariance 0 = 2.015 / 6 := by
  obtain ⟨c, h1, h2⟩ := current_used 400 (⟨fun _ => some 10, fun _ => some 0, some 1, some 0.1⟩ : CurrentValues .asym) [] .sym (by norm_num)
    (fun k => if k.2 then 0 else 10) 1 0.1 (fun _ => by simp [latest]) (fun _ => by simp [latest]) (by simp [latest]) (by simp [latest])
  obtain ⟨h3, _, h4, _⟩ := h2 0
  have f0 : factor .asym .sym 0 0 = ⟨1 / 3, 0⟩ := by
    show (1 : ℂ) / 3 = _
    apply Complex.ext <;> simp
  have f1 : factor .asym .sym 0 1 = ⟨-1 / 6, √3 / 6⟩ := by
    show a / 3 = _
    apply Complex.ext <;> simp [a] <;> ring
  have f2 : factor .asym .sym 0 2 = ⟨-1 / 6, -√3 / 6⟩ := by
    show a2 / 3 = _
    apply Complex.ext <;> simp [a2] <;> ring
  have s3 : (√3 : ℝ) ^ 2 = 3 := Real.sq_sqrt (by norm_num)
  refine ⟨c, h1, h3.trans ?_, h4.trans ?_⟩
  · refine (congrFun (usedCurrent_re .asym .sym 0) _).trans ?_
    rw [polarSum, sumThree, f0, f1, f2]
    simp
    ring
  · rw [usedCurrent_re, propagated_polar, sumThree, f0, f1, f2]
    simp only [if_true, Bool.false_eq_true, if_false, Real.cos_zero, Real.sin_zero]
    norm_num
    linear_combination (101 / 1800 : ℝ) * s3

end current

end PGM.Sensor
