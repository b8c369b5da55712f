import Verif.Output.CurrentProps
import Verif.Output.Power

/-!
# A concrete grid for C34, C50 and C51

Nodes 1, 2, 3; line 10 from 2 to 3 is switched off, line 11 goes from 1 to 2, the three-winding transformer 12 connects 1, 2 and 2; a source, a load, a shunt and sensors.
-/

namespace PGM.Output

open PGM.Container PGM.Input PGM.Update PGM.Topology PGM.PowerFlow PGM.Component

/-- An element of the example. -/
def exEl (id n1 n2 n3 object terminal : Int) : Elem Unit := ⟨id, (), n1, n2, n3, object, terminal, 0, fun _ => .ok ()⟩

/-- The input of the example. -/
def exD : CompType → List (Elem Unit)
  | .node => [exEl 1 0 0 0 0 0, exEl 2 0 0 0 0 0, exEl 3 0 0 0 0 0]
  | .line => [exEl 10 2 3 0 0 0, exEl 11 1 2 0 0 0]
  | .threeWindingTransformer => [exEl 12 1 2 2 0 0]
  | .source => [exEl 4 1 0 0 0 0]
  | .shunt => [exEl 6 2 0 0 0 0]
  | .symLoad => [exEl 5 2 0 0 0 0]
  | .symVoltageSensor => [exEl 30 0 0 0 2 0]
  | .symPowerSensor => [exEl 31 0 0 0 11 0]
  | .symCurrentSensor => [exEl 32 0 0 0 11 0, exEl 33 0 0 0 12 7, exEl 34 0 0 0 10 1]
  | _ => []

/-- The places of the example: one island with nodes 1 and 2; the switched off line has no place, so line 11 is number 0 in the island. -/
def exO : Objects where
  node := fun s => if s = 0 then some (0, 0) else if s = 1 then some (0, 1) else none
  branch := fun s => if s = 1 then some (0, 0) else none
  branch3 := fun s => if s = 0 then some (0, ![1, 2, 3]) else none
  source := fun s => if s = 0 then some (0, 0) else none
  shunt := fun s => if s = 0 then some (0, 0) else none
  loadGen := fun s => if s = 0 then some (0, 0) else none

/-- A result for the example, the same in all phases. -/
noncomputable def exSol (σ : Symm) : List (Sol σ) :=
  [{ u := [fun _ => 1, fun _ => Complex.I]
     busInjection := [fun _ => 1, fun _ => -1]
     branch := [⟨fun _ => 1, fun _ => -1, fun _ => 1, fun _ => -1⟩, ⟨0, 0, 0, 0⟩, ⟨0, 0, 0, 0⟩, ⟨0, 0, 0, 0⟩]
     source := [⟨fun _ => 1, fun _ => 1⟩]
     shunt := [⟨0, 0⟩]
     loadGen := [⟨fun _ => -1, fun _ => -1⟩] }]

/-- The data of the example: the current sensor measures exactly the calculated current, in phase with the voltage at node 1. -/
noncomputable def exA : Attr where
  uRated := fun _ => 1000000 / √3
  on := fun _ => true
  power := fun _ => .sym 1 0
  voltage := fun _ => .sym 10000 (some 0)
  current := fun _ => .sym 1 0
  localAngle := fun _ => true

theorem ex_build : ∃ c, build exD = .ok c := by
  have : (match build exD with | .ok _ => true | .error _ => false) = true := by decide +kernel
  cases h : build exD with
  | ok c => exact ⟨c, rfl⟩
  | error e => rw [h] at this; cases this

theorem ex_fits (σ : Symm) : Fits exO (exSol σ) where
  node := by
    intro s m h
    simp only [exO] at h
    split_ifs at h <;> cases h <;> simp [exSol]
  branch := by
    intro s m h
    simp only [exO] at h
    split_ifs at h <;> cases h <;> simp [exSol]
  branch3 := by
    intro s m h
    simp only [exO] at h
    split_ifs at h <;> cases h
    refine ⟨_, rfl, ?_⟩
    intro j
    fin_cases j <;> simp
  source := by
    intro s m h
    simp only [exO] at h
    split_ifs at h <;> cases h <;> simp [exSol]
  shunt := by
    intro s m h
    simp only [exO] at h
    split_ifs at h <;> cases h <;> simp [exSol]
  loadGen := by
    intro s m h
    simp only [exO] at h
    split_ifs at h <;> cases h <;> simp [exSol]

theorem ex_rated : ∀ nd ∈ exD .node, 0 < exA.uRated nd.id := by
  intro nd _
  have := sqrt3_pos
  simp only [exA]
  positivity

/-- The voltages of the example. -/
theorem ex_nodes {c : Container (Comp Unit)} (h : build exD = .ok c) (σ : Symm) :
    (∃ r : NodeOut σ, some r ∈ nodeRecords exA c exO (exSol σ) ∧ r.id = 1 ∧ r.energized = true ∧ ∀ j, r.uAngle j = 0) ∧
      (∃ r : NodeOut σ, some r ∈ nodeRecords exA c exO (exSol σ) ∧ r.id = 2 ∧ r.energized = true ∧ ∀ j, r.uAngle j = Real.pi / 2) ∧
      ∃ r : NodeOut σ, some r ∈ nodeRecords exA c exO (exSol σ) ∧ r.id = 3 ∧ r.energized = false := by
  have hn := (node_records h exA exO (exSol σ) (ex_fits σ)).2
  refine ⟨?_, ?_, ?_⟩
  · obtain ⟨r, h1, h2, h3⟩ := hn 0 _ rfl
    refine ⟨r, List.mem_of_getElem? h1, h2, ?_⟩
    rcases h3 with ⟨h3, _⟩ | ⟨m, x, u, h3, h4, h5, h6, h7⟩
    · simp [exO] at h3
    · simp only [exO, if_true, Option.some.injEq] at h3
      subst h3
      simp only [exSol, List.getElem?_cons_zero, Option.some.injEq] at h4
      subst h4
      simp only [List.getElem?_cons_zero, Option.some.injEq] at h5
      subst h5
      exact ⟨h6, fun j => by rw [(h7 j).2.1]; simp⟩
  · obtain ⟨r, h1, h2, h3⟩ := hn 1 _ rfl
    refine ⟨r, List.mem_of_getElem? h1, h2, ?_⟩
    rcases h3 with ⟨h3, _⟩ | ⟨m, x, u, h3, h4, h5, h6, h7⟩
    · simp [exO] at h3
    · simp only [exO, one_ne_zero, if_false, if_true, Option.some.injEq] at h3
      subst h3
      simp only [exSol, List.getElem?_cons_zero, Option.some.injEq] at h4
      subst h4
      simp only [List.getElem?_cons_succ, List.getElem?_cons_zero, Option.some.injEq] at h5
      subst h5
      exact ⟨h6, fun j => by rw [(h7 j).2.1]; exact Complex.arg_I⟩
  · obtain ⟨r, h1, h2, h3⟩ := hn 2 _ rfl
    refine ⟨r, List.mem_of_getElem? h1, h2, ?_⟩
    rcases h3 with ⟨_, h3, _⟩ | ⟨m, x, u, h3, _⟩
    · exact h3
    · simp [exO] at h3

theorem ex_calculates {c : Container (Comp Unit)} (h : build exD = .ok c) (σ : Symm) : CalculatesCurrent c exO (exSol σ) 0 11 (fun _ => 1) := by
  have hs := seq_position h (t := .line) (k := 1) (e := exEl 11 1 2 0 0 0) rfl
  exact .branchFrom 11 1 (0, 0) _ ⟨fun _ => 1, fun _ => -1, fun _ => 1, fun _ => -1⟩ hs rfl rfl rfl

/-- C34 is violated by current sensors whose angle is relative to the voltage: in the example the sensor at the from side of line 11, at node 1, measures the calculated current with an
angle of zero, and the voltage at node 1 and the calculated current both have angle zero. But the reported angle residual is -90 degrees, since the code takes the voltage at node 2, where line 10 begins. -/
theorem current_sensor_angle_wrong : ∃ c, build exD = .ok c ∧ Fits exO (exSol .sym) ∧ exA.localAngle 32 = true ∧
    (∀ j, MeasuresCurrent .sym (exA.current 32) j 1 0) ∧ CalculatesCurrent c exO (exSol .sym) 0 11 (fun _ => 1) ∧
    (∃ r : NodeOut .sym, some r ∈ nodeRecords exA c exO (exSol .sym) ∧ r.id = 1 ∧ r.energized = true ∧ ∀ j, r.uAngle j = 0) ∧
    ∃ out, (currentSensorRecords .symCurrentSensor exA c exO (exSol .sym))[0]? = some (some out) ∧ ∀ j, out.iAngleResidual j = -(Real.pi / 2) := by
  obtain ⟨c, h⟩ := ex_build
  refine ⟨c, h, ex_fits _, rfl, fun j => .symSym 1 0 j, ex_calculates h _, (ex_nodes h _).1, ?_⟩
  obtain ⟨r, hr1, hr2, hr3, hr4⟩ := (ex_nodes h .sym).2.1
  obtain ⟨out, ho, _, hang⟩ := current_sensor_angle_of_other_node h exA exO (exSol .sym) (ex_fits _) .symCurrentSensor (by decide) 0 _ rfl (.inl rfl)
    ex_rated .line (by decide) 1 _ rfl rfl .line (by decide) 0 _ rfl 0 (by omega) rfl r hr1 hr2 hr3
  refine ⟨out, ho, fun j => ?_⟩
  have := hang rfl j 1 0 _ (.symSym 1 0 j) one_pos (ex_calculates h _) one_ne_zero
  rw [hr4] at this
  refine this.unique ?_
  have hp := Real.pi_pos
  exact ⟨by linarith, by linarith, 0, by simp⟩

/-- The current sensor of the example at the three-winding transformer: the record is undefined. -/
example : ∃ c, build exD = .ok c ∧ (currentSensorRecords .symCurrentSensor exA c exO (exSol .sym))[1]? = some none := by
  obtain ⟨c, h⟩ := ex_build
  exact ⟨c, h, current_sensor_branch3_undefined h exA exO (exSol .sym) .symCurrentSensor (by decide) 1 _ rfl 1 rfl 0 _ rfl rfl _ rfl (by decide)⟩

/-- The same grid with line 10 closed at node 2 and open at node 3. -/
def exO2 : Objects := { exO with branch := fun s => if s = 0 then some (0, 0) else if s = 1 then some (0, 1) else none }

theorem ex_fits2 (σ : Symm) : Fits exO2 (exSol σ) := by
  have h := ex_fits σ
  refine ⟨h.node, ?_, h.branch3, h.source, h.shunt, h.loadGen⟩
  intro s m hm
  simp only [exO2] at hm
  split_ifs at hm <;> cases hm <;> simp [exSol]

theorem ex_nodes2 {c : Container (Comp Unit)} (σ : Symm) : nodeRecords exA c exO2 (exSol σ) = nodeRecords exA c exO (exSol σ) := rfl

/-- The current sensor at the open end of line 10: the record is undefined. -/
example : ∃ c, build exD = .ok c ∧ (currentSensorRecords .symCurrentSensor exA c exO2 (exSol .sym))[2]? = some none := by
  obtain ⟨c, h⟩ := ex_build
  obtain ⟨r, hr1, hr2, hr3⟩ := (ex_nodes h .sym).2.2
  exact ⟨c, h, current_sensor_open_end_undefined h exA exO2 (exSol .sym) .symCurrentSensor (by decide) 2 _ rfl (.inr rfl) .line (by decide) 0 _ rfl rfl 0
    (by omega) rfl r hr1 hr2 hr3⟩

/-- With every branch at its own number the sensor at line 11 is right: the hypotheses of `current_sensor_local_partial` are met. -/
example : ∃ c, build exD = .ok c ∧ ∃ out, (currentSensorRecords .symCurrentSensor exA c exO2 (exSol .sym))[0]? = some (some out) ∧ out.energized = true := by
  obtain ⟨c, h⟩ := ex_build
  obtain ⟨r, hr1, hr2, hr3, _⟩ := (ex_nodes h .sym).1
  obtain ⟨out, h1, h2, _⟩ := current_sensor_local_partial h exA exO2 (exSol .sym) (ex_fits2 _) .symCurrentSensor (by decide) 0 _ rfl (.inl rfl) ex_rated .line (by decide) 1 _ rfl
    rfl 0 (by omega) rfl r hr1 hr2 hr3
  exact ⟨c, h, out, h1, h2⟩

/-- The hypotheses of `current_sensor_residual_partial` are met by the same sensor, and its residual is zero but for the base: it measures 1 A, and 1 A is calculated. -/
example : ∃ c, build exD = .ok c ∧ ∃ out, (currentSensorRecords .symCurrentSensor exA c exO (exSol .sym))[0]? = some (some out) ∧ out.id = 32 := by
  obtain ⟨c, h, _, _, _, _, _, out, ho, _⟩ := current_sensor_angle_wrong
  refine ⟨c, h, out, ho, ?_⟩
  exact (current_sensor_residual_partial h exA exO (exSol .sym) .symCurrentSensor (by decide) 0 _ rfl ex_rated (fun _ _ _ _ => rfl) out ho).1

/-- The hypotheses of the theorems on power and voltage sensors, nodes and records are met. -/
example : ∃ c, build exD = .ok c ∧ (∃ out, (powerSensorRecords .symPowerSensor exA c exO (exSol .asym))[0]? = some (some out) ∧ out.id = 31) ∧
    (∃ out, (voltageSensorRecords .symVoltageSensor exA c exO (exSol .sym))[0]? = some (some out) ∧ out.id = 30) ∧
    (branchRecords .line exA c exO (exSol .sym)).length = 2 ∧ (branch3Records exA c exO (exSol .sym)).length = 1 ∧
    (applRecords .symLoad exA c exO (exSol .sym)).length = 1 ∧
    ∃ r, (nodeRecords exA c exO (exSol .sym))[1]? = some (some r) ∧ r.id = 2 := by
  obtain ⟨c, h⟩ := ex_build
  refine ⟨c, h, ?_, ?_, (branch_records h exA exO (exSol .sym) (ex_fits _) .line (by decide)).1, (branch3_records h exA exO (exSol .sym) (ex_fits _)).1,
    (appliance_records h exA exO (exSol .sym) (ex_fits _) .symLoad (by decide)).1, ?_⟩
  · obtain ⟨out, h1, h2, _⟩ := power_sensor_residual h exA exO (exSol .asym) (ex_fits _) .symPowerSensor (by decide) 0 _ rfl
    exact ⟨out, h1, h2⟩
  · obtain ⟨out, r, h1, h2, _⟩ := voltage_sensor_residual_partial h exA exO (exSol .sym) (ex_fits _) .symVoltageSensor (by decide) 0 _ rfl
      (ex_rated (exEl 2 0 0 0 0 0) (by simp [exD])) (by intro u θ hu; cases hu; norm_num)
    exact ⟨out, h1, h2⟩
  · obtain ⟨r, h1, h2, _⟩ := node_power h exA exO (exSol .sym) (ex_fits _) 1 _ rfl
    exact ⟨r, h1, h2⟩

/-- A balanced result: every node at 1 p.u. with the phases 120 degrees apart. -/
noncomputable def exSolBalanced : List (Sol .asym) :=
  [{ u := [spread .asym 1, spread .asym 1]
     busInjection := [0, 0]
     branch := [⟨0, 0, 0, 0⟩, ⟨0, 0, 0, 0⟩, ⟨0, 0, 0, 0⟩, ⟨0, 0, 0, 0⟩]
     source := [⟨0, 0⟩]
     shunt := [⟨0, 0⟩]
     loadGen := [⟨0, 0⟩] }]

theorem ex_fits3 : Fits exO exSolBalanced where
  node := by
    intro s m h
    simp only [exO] at h
    split_ifs at h <;> cases h <;> simp [exSolBalanced]
  branch := by
    intro s m h
    simp only [exO] at h
    split_ifs at h <;> cases h <;> simp [exSolBalanced]
  branch3 := by
    intro s m h
    simp only [exO] at h
    split_ifs at h <;> cases h
    refine ⟨_, rfl, ?_⟩
    intro j
    fin_cases j <;> simp
  source := by
    intro s m h
    simp only [exO] at h
    split_ifs at h <;> cases h <;> simp [exSolBalanced]
  shunt := by
    intro s m h
    simp only [exO] at h
    split_ifs at h <;> cases h <;> simp [exSolBalanced]
  loadGen := by
    intro s m h
    simp only [exO] at h
    split_ifs at h <;> cases h <;> simp [exSolBalanced]

/-- The symmetric voltage sensor of the example measures an angle of zero, exactly as calculated, and is reported to be off by 120 degrees in two phases: the hypotheses of
`sym_voltage_sensor_angle_wrong` are met. -/
example : ∃ c, build exD = .ok c ∧ ∃ out, (voltageSensorRecords .symVoltageSensor exA c exO exSolBalanced)[0]? = some (some out) ∧
    out.uAngleResidual = ![some 0, some (2 * Real.pi / 3), some (-(2 * Real.pi / 3))] := by
  obtain ⟨c, h⟩ := ex_build
  refine ⟨c, h, sym_voltage_sensor_angle_wrong h exA exO exSolBalanced ex_fits3 .symVoltageSensor (by decide) 0 _ rfl 10000 0 rfl ?_⟩
  obtain ⟨r, h1, h2, h3⟩ := (node_records h exA exO exSolBalanced ex_fits3).2 1 _ rfl
  refine ⟨r, List.mem_of_getElem? h1, h2, ?_⟩
  rcases h3 with ⟨h3, _⟩ | ⟨m, x, u, h3, h4, h5, h6, h7⟩
  · simp [exO] at h3
  · simp only [exO, one_ne_zero, if_false, if_true, Option.some.injEq] at h3
    subst h3
    simp only [exSolBalanced, List.getElem?_cons_zero, Option.some.injEq] at h4
    subst h4
    simp only [List.getElem?_cons_succ, List.getElem?_cons_zero, Option.some.injEq] at h5
    subst h5
    refine ⟨h6, fun j => ?_⟩
    rw [(h7 j).2.1]
    have := spread_exp 0 j
    rw [show Complex.exp (((0 : ℝ) : ℂ) * Complex.I) = 1 by simp] at this
    rw [this]
    exact (phaseMod_isAngle _).2.2

end PGM.Output
