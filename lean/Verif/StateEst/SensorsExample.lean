import Verif.StateEst.Sensors
import Verif.StateEst.Examples

/-!
# C18: an estimation from the sensors to the result
-/

namespace PGM.StateEst

open PGM.YBus PGM.Lu PGM.PowerFlow PGM.Measured

/-- A power sensor for the power `x` with variance one half in both components. -/
noncomputable def sensor (x : ℝ) : PowerSensor .sym := ⟨⟨fun _ => x, fun _ => some (1 / 2)⟩, ⟨fun _ => 0, fun _ => some (1 / 2)⟩⟩

/-- Bus 0 has a source with a sensor, bus 1 a load without one; the voltage at bus 0 and the power of the line are measured. -/
noncomputable def exInput : SeInput .sym where
  voltage b := if b = 0 then [⟨fun _ => 2, some fun _ => 0, some 1⟩] else []
  appliances b := if b = 0 then [(true, [sensor 2])] else [(true, [])]
  injection _ := []
  shunt _ := (false, [])
  branchPower side k := if side = 0 ∧ k = 0 then [sensor 2] else []
  branchCurrent _ _ := []

theorem combine_one {V : Type} {ι : Type} [Fintype ι] [AddCommGroup V] [Module ℝ V] (v : ι → V) (x : ℝ) (hx : 0 < x) (p : ι) :
    (combine [(⟨v, fun _ => some x⟩ : RandVar ι V ℝ)]).value p = some (v p) ∧ (combine [(⟨v, fun _ => some x⟩ : RandVar ι V ℝ)]).variance p = some x := by
  have hp : Positive [(⟨v, fun _ => some x⟩ : RandVar ι V ℝ)] := by
    intro m hm p s h
    rw [List.mem_singleton] at hm
    subst hm
    injection h with h
    exact h ▸ hx
  have hf : ∀ p, HasFinite [(⟨v, fun _ => some x⟩ : RandVar ι V ℝ)] p := fun p => ⟨_, List.mem_singleton.mpr rfl, x, rfl⟩
  obtain ⟨a, b, h1, h2, h3, h4, h5⟩ := combine_weighted_mean _ hp hf p
  have e : totalWeight [(⟨v, fun _ => some x⟩ : RandVar ι V ℝ)] p = x⁻¹ := by simp [totalWeight, weight]
  have e2 : weightedSum [(⟨v, fun _ => some x⟩ : RandVar ι V ℝ)] p = x⁻¹ • v p := by simp [weightedSum, weight]
  rw [e] at h4 h5
  rw [e2] at h5
  have hb : b = x := by rw [one_div] at h4; exact inv_injective h4
  have ha : a = v p := smul_right_injective V (inv_ne_zero hx.ne') h5
  rw [h1, h2, ha, hb]
  exact ⟨rfl, rfl⟩

theorem sensor_positive (x : ℝ) : PositivePower [sensor x] := by
  constructor
  all_goals
    intro m hm p v h
    simp only [sensor, List.map_cons, List.map_nil, List.mem_singleton] at hm
    subst hm
    injection h with h
    rw [← h]
    norm_num

theorem processOne_sensor (x : ℝ) : processOne true [sensor x] = .measured ⟨fun _ => x, fun _ => 0, fun _ => 1 / 2, fun _ => 1 / 2⟩ := by
  obtain ⟨_, h, _⟩ := slot_finite true [sensor x] (sensor_positive x).1 (sensor_positive x).2
  obtain ⟨m, hm, hp⟩ := h rfl fun p => ⟨⟨_, List.mem_singleton.mpr rfl, 1 / 2, rfl⟩, ⟨_, List.mem_singleton.mpr rfl, 1 / 2, rfl⟩⟩
  rw [hm]
  congr 1
  obtain ⟨mp, mq, mvp, mvq⟩ := m
  have c := fun v p => combine_one (ι := Fin Symm.sym.phases) (V := ℝ) v (1 / 2) (by norm_num) p
  congr 1
  · funext p; have h1 := (hp p).1; have h2 := (c (fun _ => x) p).1; exact Option.some.inj (h1.symm.trans h2)
  · funext p; have h1 := (hp p).2.2.1; have h2 := (c (fun _ => 0) p).1; exact Option.some.inj (h1.symm.trans h2)
  · funext p; have h1 := (hp p).2.1; have h2 := (c (fun _ => x) p).2; exact Option.some.inj (h1.symm.trans h2)
  · funext p; have h1 := (hp p).2.2.2.1; have h2 := (c (fun _ => 0) p).2; exact Option.some.inj (h1.symm.trans h2)

theorem powerOf_sensor (x : ℝ) : (powerOf true [sensor x]).map toPowerM = some (power x) := by
  unfold powerOf
  rw [processOne_sensor]
  rfl

theorem positive_nil : PositivePower ([] : List (PowerSensor .sym)) := ⟨fun m hm => (by cases hm), fun m hm => (by cases hm)⟩

theorem exInput_valid : exInput.Valid where
  voltage b m hm v hv := by
    simp only [exInput] at hm
    split_ifs at hm
    · rw [List.mem_singleton] at hm
      subst hm
      injection hv with hv
      exact hv ▸ one_pos
    · cases hm
  appliances b a ha := by
    simp only [exInput] at ha
    split_ifs at ha
    · rw [List.mem_singleton] at ha
      subst ha
      exact sensor_positive 2
    · rw [List.mem_singleton] at ha
      subst ha
      exact positive_nil
  injection b := positive_nil
  shunt b := positive_nil
  branchPower side k := by
    simp only [exInput]
    split_ifs
    · exact sensor_positive 2
    · exact positive_nil
  branchCurrent side k := positive_nil

theorem powerOf_empty (status : Bool) : powerOf status ([] : List (PowerSensor .sym)) = none := by
  cases status <;> rfl

/-- The merged measurements are those of the example. -/
theorem exInput_merged : merged exTopo2 exInput = exMeasured := by
  unfold merged exMeasured
  congr 1
  · funext b
    simp only [exInput]
    by_cases hb : b = 0
    · rw [if_pos hb, if_pos hb]
      unfold voltOf combineVoltage
      have c := combine_one (ι := Unit) (V := Fin Symm.sym.phases → ℝ × ℝ) (fun _ _ => (2, 0)) 1 one_pos ()
      have e : (combine (ι := Unit) (V := Fin Symm.sym.phases → ℝ × ℝ) (K := ℝ)
          ([(⟨fun _ => 2, some fun _ => 0, some 1⟩ : Voltage (Fin Symm.sym.phases) ℝ)].map
            fun m => ⟨fun _ p => (m.re p, (m.im.getD fun _ => 0) p), fun _ => m.variance⟩)) =
          combine [(⟨fun _ _ => (2, 0), fun _ => some 1⟩ : RandVar Unit (Fin Symm.sym.phases → ℝ × ℝ) ℝ)] := rfl
      rw [if_neg (by simp)]
      simp only [e, c.1, c.2]
      rfl
    · rw [if_neg hb, if_neg hb]
      unfold voltOf combineVoltage
      have : (combine (ι := Unit) (V := Fin Symm.sym.phases → ℝ × ℝ) (K := ℝ) []).variance () = none :=
        combine_unmeasured [] (fun m hm => by cases hm) () (fun ⟨m, hm, _⟩ => by cases hm) ()
      rw [if_neg (by simp)]
      simp only [List.map_nil, this]
      cases (combine (ι := Unit) (V := Fin Symm.sym.phases → ℝ × ℝ) (K := ℝ) []).value () <;> rfl
  · funext b
    by_cases hb : b = 0
    · have : injectionOf exInput b = some ⟨fun _ => 2, fun _ => 0, fun _ => 1 / 2, fun _ => 1 / 2⟩ := by
        unfold injectionOf slotsOf
        simp only [exInput, if_pos hb, List.map_cons, List.map_nil, processOne_sensor, powerOf_empty]
        simp only [applianceInjection, List.foldl_cons, List.foldl_nil, addAppliance, PQ.zero, zero_add, busMeasurement, gt_iff_lt, lt_irrefl, if_false]
      rw [this, if_pos hb]
      rfl
    · rw [if_neg hb]
      have : injectionOf exInput b = none := by
        unfold injectionOf slotsOf
        simp only [exInput, if_neg hb, List.map_cons, List.map_nil, powerOf_empty]
        rfl
      rw [this]
      rfl
  · funext side k
    simp only [exInput]
    by_cases h : side = 0 ∧ k = 0
    · rw [if_pos h, if_pos h, h.1, h.2]
      exact powerOf_sensor 2
    · rw [if_neg h, if_neg h, powerOf_empty]
      rfl
  · funext side k
    unfold currentOr currentOf
    cases branchStatus exTopo2 side k <;> rfl

/-- All variances are one already. -/
theorem exMeasured_normalized : normalizeVariance exTopo2 exMeasured = exMeasured := by
  obtain ⟨m, hm, hpos, _, e⟩ := normalize_scales (T := exTopo2) exMeasured_valid ⟨0, by decide, rfl⟩
  have h1 : m = 1 := by
    simp [variances, exTopo2, exMeasured, List.range_succ, power] at hm
    rcases hm with h | ⟨_, h⟩
    · exact h
    · rw [h]; norm_num
  rw [e, h1]
  unfold scaleVar
  simp

/-- **C18 on the example.** The estimation returns a result, and it meets the hypotheses of the theorem. -/
example (tol : ℝ) (htol : 0 ≤ tol) (maxIter : Nat) (shift : Nat → ℝ) :
    ∃ S old perms out, build exTopo2 = some S ∧ runStateEstimation (exSeNet S) shift exInput tol (maxIter + 2) old perms = .ok out ∧
      out.u 0 = one 2 ∧ out.u 1 = one 1 ∧
      ∀ b, b < 2 → ((out.appliances b).map fun x => x.p (0 : Fin 1)).sum = (out.busInjection b (0 : Fin 1)).re := by
  obtain ⟨S, old, perms, u, hS, hold, hlen, h1, h2, h3⟩ := exRun (firstVoltage exTopo2 shift exMeasured) tol htol maxIter
  have hrun : runStateEstimation (exSeNet S) shift exInput tol (maxIter + 2) old perms = .ok (seResult (exSeNet S) exInput u) := by
    unfold runStateEstimation
    rw [if_neg]
    · rw [show (exSeNet S).T = exTopo2 from rfl, exInput_merged, exMeasured_normalized, h1]
    · rw [show (exSeNet S).T = exTopo2 from rfl]
      unfold conflicting
      simp only [exInput]
      decide
  refine ⟨S, old, perms, _, hS, hrun, h2, h3, fun b hb => ?_⟩
  have ho := exObservable
  rw [hS] at ho
  injection ho with ho
  refine (estimation_balances_partial (exSeNet_valid hS) shift exInput_valid ⟨0, by show 0 < 2; omega, ?_⟩ hold hlen (Or.inl fun obs => ?_) hrun b hb
    (0 : Fin 1)).1
  · show ((merged exTopo2 exInput).voltage 0).isSome
    rw [exInput_merged]
    rfl
  · rw [show (exSeNet S).T = exTopo2 from rfl, exInput_merged, exMeasured_normalized]
    show Observability.check exTopo2 true S (flags exTopo2 exMeasured) ≠ _
    rw [show Observability.check exTopo2 true S (flags exTopo2 exMeasured) = .returns true false from ho]
    intro h
    injection h with h h'
    cases h'

end PGM.StateEst
