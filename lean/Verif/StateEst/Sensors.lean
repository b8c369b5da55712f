import Verif.StateEst.Normalize
import Verif.Measured.Values

/-!
# State estimation from the sensors to the reported powers

Prefix of all paths: `P/` = `/repo/power_grid_model_c/power_grid_model/include/power_grid_model/`. Model of the constructor of `MeasuredValues`,
`P/math_solver/measured_values.hpp` lines 48-74, 234-436 and 486-530, of the start of `run_state_estimation`,
`P/math_solver/iterative_linear_se_solver.hpp` lines 96-128, and of `calculate_se_result`, `P/math_solver/common_solver_functions.hpp`.

Simplifications: the sensors of an object are the list of its group (C03). The appliances of a bus are its loads and generators, followed by its
sources. A merged current measurement with infinite variance counts as none; the code keeps it with weight zero.
-/

namespace PGM.StateEst

open PGM.YBus PGM.Lu PGM.PowerFlow PGM.Measured

variable {s : Symm}

/-! ## Model -/

/-- A power sensor, `PowerSensorCalcParam<sym>`; `none` is an infinite variance. -/
abbrev PowerSensor (s : Symm) := Decomposed (Fin s.phases) ℝ

/-- `StateEstimationInput<sym>` with the groups of sensors of the topology. -/
structure SeInput (s : Symm) where
  voltage : Nat → List (Voltage (Fin s.phases) ℝ)
  /-- Status and sensors of the appliances of a bus. -/
  appliances : Nat → List (Bool × List (PowerSensor s))
  injection : Nat → List (PowerSensor s)
  /-- Status and sensors of a shunt. -/
  shunt : Nat → Bool × List (PowerSensor s)
  branchPower : Fin 2 → Nat → List (PowerSensor s)
  branchCurrent : Fin 2 → Nat → List (Current (Fin s.phases) ℝ)

/-- The numbers of a merged measurement as complex values. -/
def toPowerM (m : PQ (Fin s.phases) ℝ) : PowerM s := ⟨fun p => ⟨m.p p, m.q p⟩, m.vp, m.vq⟩

/-- The absolute value of a complex number. -/
noncomputable def cabs (x y : ℝ) : ℝ := ‖(⟨x, y⟩ : ℂ)‖

/-- `process_bus_voltage_measurements`, `measured_values.hpp` lines 286-314: the entry of `voltage_main_value_`. The merged value of a finite variance
is finite. -/
noncomputable def voltOf (l : List (Voltage (Fin s.phases) ℝ)) : Option (VoltM s) :=
  match combineVoltage cabs l with
  | (.magnitude (some v), some var) => some ⟨.magnitude v, var⟩
  | (.phasor (some v), some var) => some ⟨.phasor fun p => ⟨(v p).1, (v p).2⟩, var⟩
  | _ => none

/-- `process_one_object` for powers that are used in the main calculation. -/
noncomputable def powerOf (status : Bool) (l : List (PowerSensor s)) : Option (PQ (Fin s.phases) ℝ) :=
  match processOne status l with
  | .measured m => some m
  | _ => none

/-- A merged measurement as a measurement again. -/
def again (m : PQ (Fin s.phases) ℝ) : PowerSensor s := ⟨⟨m.p, fun p => some (m.vp p)⟩, ⟨m.q, fun p => some (m.vq p)⟩⟩

/-- The indices of `extra_value_` for the appliances of a bus, `process_bus_objects`. -/
noncomputable def slotsOf (I : SeInput s) (b : Nat) : List (Slot (Fin s.phases) ℝ) := (I.appliances b).map fun a => processOne a.1 a.2

/-- The entry of `power_main_value_` for the injection of a bus, `combine_appliances_to_injection_measurements`, lines 354-377. -/
noncomputable def injectionOf (I : SeInput s) (b : Nat) : Option (PQ (Fin s.phases) ℝ) :=
  match busMeasurement (applianceInjection (slotsOf I b)) (powerOf true (I.injection b)) with
  | .none => none
  | .direct m => some m
  | .appliances m => some m
  | .both d a => powerOf true [again d, again a]

/-- `process_one_object` for currents; the outer `none` is `ConflictingAngleMeasurementType`. -/
noncomputable def currentOf (status : Bool) (l : List (Current (Fin s.phases) ℝ)) : Option (Option (CurrM s)) :=
  if !status then some none
  else
    match combineCurrent l with
    | none => none
    | some (g, _) =>
      match processOne true (l.map (·.measurement)) with
      | .measured m => some (some ⟨fun p => ⟨m.p p, m.q p⟩, m.vp, m.vq, g⟩)
      | _ => some none

/-- `branch_from_checker` and `branch_to_checker`, lines 416-417. -/
def branchStatus (T : Topo) (side : Fin 2) (k : Nat) : Bool :=
  match T.branches[k]? with
  | some b => (if side = 0 then b.1 else b.2).isSome
  | none => false

/-- A current measurement where the angle types do not conflict. -/
noncomputable def currentOr (status : Bool) (l : List (Current (Fin s.phases) ℝ)) : Option (CurrM s) := (currentOf status l).getD none

/-- The vectors of the constructor, lines 67-71, before the normalisation. -/
noncomputable def merged (T : Topo) (I : SeInput s) : Measured s where
  voltage b := voltOf (I.voltage b)
  injection b := (injectionOf I b).map toPowerM
  shunt k := (powerOf (I.shunt k).1 (I.shunt k).2).map toPowerM
  branchPower side k := (powerOf (branchStatus T side k) (I.branchPower side k)).map toPowerM
  branchCurrent side k := currentOr (branchStatus T side k) (I.branchCurrent side k)

/-- The constructor throws if the angle types of the current sensors at the side of a branch differ. -/
noncomputable def conflicting (T : Topo) (I : SeInput s) : Bool :=
  (List.range T.branches.length).any fun k => ([0, 1] : List (Fin 2)).any fun side => (currentOf (branchStatus T side k) (I.branchCurrent side k)).isNone

/-- The angle of a phasor relative to the phase shift of its bus, lines 306-310. -/
noncomputable def relativeAngle (shift : Nat → ℝ) (b : Nat) : Option (VoltM s) → Option (Fin s.phases → ℝ)
  | some ⟨.phasor v, _⟩ => some fun p => Complex.arg (v p * Complex.exp (-(shift b : ℂ) * Complex.I))
  | _ => none

/-- `mean_angle_shift_`, lines 63-66 and 266-281. -/
noncomputable def meanAngle (T : Topo) (shift : Nat → ℝ) (M : Measured s) : Fin s.phases → ℝ :=
  let l := (List.range T.nBus).filterMap fun b => relativeAngle shift b (M.voltage b)
  if l.length > 0 then fun p => (l.map fun a => a p).sum / l.length else fun p => Complex.arg (spread s 1 p)

/-- The first voltages, `iterative_linear_se_solver.hpp` lines 121-127. -/
noncomputable def firstVoltage (T : Topo) (shift : Nat → ℝ) (M : Measured s) (b : Nat) : CV s :=
  fun p => Complex.exp (((meanAngle T shift M p + shift b : ℝ) : ℂ) * Complex.I)

/-- The part of `SolverOutput<sym>` that the estimation fills. -/
structure SeOutput (s : Symm) where
  u : Nat → CV s
  busInjection : Nat → CV s
  branch : List (CV s × CV s)
  shunt : List (CV s)
  /-- The powers of the appliances of a bus. -/
  appliances : Nat → List (Power (Fin s.phases) ℝ)

/-- `calculate_se_result`, `P/math_solver/common_solver_functions.hpp`; of the branches and the shunts, the currents. -/
noncomputable def seResult (N : SeNet s) (I : SeInput s) (u : Nat → CV s) : SeOutput s where
  u := u
  busInjection b := star (busCurrent N.S N.y (PowerFlow.dot s) u b) * u b
  branch := branchFlow N.T N.y.param (PowerFlow.dot s) u
  shunt := shuntFlow N.T N.y.param (PowerFlow.dot s) u
  appliances b :=
    let inj : CV s := star (busCurrent N.S N.y (PowerFlow.dot s) u b) * u b
    applianceFlows (slotsOf I b) ⟨fun p => (inj p).re, fun p => (inj p).im⟩

/-- What `run_state_estimation` can end with, other than a result. -/
inductive RunErr where
  | conflictingAngles
  | estimation (e : SeErr)

/-- `run_state_estimation`, `iterative_linear_se_solver.hpp` lines 92-154. -/
noncomputable def runStateEstimation (N : SeNet s) (shift : Nat → ℝ) (I : SeInput s) (tol : ℝ) (maxIter : Nat) (old : List (Gain s))
    (perms : List (BlockPerm (s.phases + s.phases))) : Except RunErr (SeOutput s) :=
  if conflicting N.T I then .error .conflictingAngles
  else
    match seVoltages N (normalizeVariance N.T (merged N.T I)) tol maxIter old perms (firstVoltage N.T shift (merged N.T I)) with
    | .error e => .error (.estimation e)
    | .ok u => .ok (seResult N I u)

/-! ## Specification -/

/-- All variances are positive; they may be infinite. -/
def PositivePower (l : List (PowerSensor s)) : Prop := Positive (l.map (·.re)) ∧ Positive (l.map (·.im))

structure SeInput.Valid (I : SeInput s) : Prop where
  voltage : ∀ b, ∀ m ∈ I.voltage b, ∀ v, m.variance = some v → 0 < v
  appliances : ∀ b, ∀ a ∈ I.appliances b, PositivePower a.2
  injection : ∀ b, PositivePower (I.injection b)
  shunt : ∀ k, PositivePower (I.shunt k).2
  branchPower : ∀ side k, PositivePower (I.branchPower side k)
  branchCurrent : ∀ side k, PositivePower ((I.branchCurrent side k).map (·.measurement))

/-! ## Lemmas -/

instance : Nonempty (Fin s.phases) := by cases s <;> exact ⟨0, by decide⟩

theorem processOne_pos {status : Bool} {l : List (PowerSensor s)} (h : PositivePower l) {m : PQ (Fin s.phases) ℝ}
    (hm : processOne status l = .measured m) (p : Fin s.phases) : 0 < m.vp p ∧ 0 < m.vq p := by
  obtain ⟨h1, h2, h3⟩ := slot_finite status l h.1 h.2
  cases status with
  | false => rw [h1 rfl] at hm; cases hm
  | true =>
    by_cases hf : ∀ p, HasFinite (l.map (·.re)) p ∧ HasFinite (l.map (·.im)) p
    · obtain ⟨m', e, hp⟩ := h2 rfl hf
      rw [e] at hm
      injection hm with hm
      subst hm
      exact ⟨(hp p).2.2.2.2.1, (hp p).2.2.2.2.2⟩
    · rw [h3 rfl (not_forall.mp hf)] at hm
      cases hm

theorem powerOf_pos {status : Bool} {l : List (PowerSensor s)} (h : PositivePower l) {m : PQ (Fin s.phases) ℝ}
    (hm : powerOf status l = some m) (p : Fin s.phases) : 0 < m.vp p ∧ 0 < m.vq p := by
  unfold powerOf at hm
  split at hm
  · rename_i m' e
    injection hm with hm
    subst hm
    exact processOne_pos h e p
  · cases hm

theorem slots_ok {I : SeInput s} (hI : I.Valid) (b : Nat) : SlotsOk (slotsOf I b) := by
  intro m hm p
  unfold slotsOf at hm
  obtain ⟨a, ha, e⟩ := List.mem_map.mp hm
  exact processOne_pos (hI.appliances b a ha) e p

theorem sum_nonneg_of (l : List (PQ (Fin s.phases) ℝ)) (f : PQ (Fin s.phases) ℝ → ℝ) (h : ∀ m ∈ l, 0 < f m) : 0 ≤ (l.map f).sum :=
  List.sum_nonneg fun x hx => by
    obtain ⟨m, hm, rfl⟩ := List.mem_map.mp hx
    exact (h m hm).le

theorem injection_nonneg {I : SeInput s} (hI : I.Valid) (b : Nat) (p : Fin s.phases) :
    0 ≤ (applianceInjection (slotsOf I b)).sum.vp p ∧ 0 ≤ (applianceInjection (slotsOf I b)).sum.vq p := by
  obtain ⟨_, _, e3, e4⟩ := (PGM.Measured.injection_eq (slotsOf I b)).2 p
  rw [e3, e4]
  exact ⟨sum_nonneg_of _ (fun m => m.vp p) fun m hm => (slots_ok hI b m (mem_measurements.mp hm) p).1,
    sum_nonneg_of _ (fun m => m.vq p) fun m hm => (slots_ok hI b m (mem_measurements.mp hm) p).2⟩

theorem injectionOf_nonneg {I : SeInput s} (hI : I.Valid) {b : Nat} {m : PQ (Fin s.phases) ℝ} (hm : injectionOf I b = some m) (p : Fin s.phases) :
    0 ≤ m.vp p ∧ 0 ≤ m.vq p := by
  have hd : ∀ d, powerOf true (I.injection b) = some d → ∀ p, 0 < d.vp p ∧ 0 < d.vq p := fun d h p => powerOf_pos (hI.injection b) h p
  have ha := injection_nonneg hI b
  unfold injectionOf busMeasurement at hm
  by_cases hu : (applianceInjection (slotsOf I b)).nUnmeasured > 0
  · simp only [if_pos hu] at hm
    cases e : powerOf true (I.injection b) with
    | none => rw [e] at hm; simp at hm
    | some d =>
      rw [e] at hm
      simp only [Option.some.injEq] at hm
      subst hm
      exact ⟨(hd d e p).1.le, (hd d e p).2.le⟩
  · simp only [if_neg hu] at hm
    cases e : powerOf true (I.injection b) with
    | none =>
      rw [e] at hm
      simp only [Option.some.injEq] at hm
      subst hm
      exact ha p
    | some d =>
      rw [e] at hm
      simp only at hm
      by_cases hz : (∃ i, (applianceInjection (slotsOf I b)).sum.vp i = 0) ∨ ∃ i, (applianceInjection (slotsOf I b)).sum.vq i = 0
      · simp only [if_pos hz] at hm
        simp only [Option.some.injEq] at hm
        subst hm
        exact ha p
      · simp only [if_neg hz] at hm
        push Not at hz
        have hpos : PositivePower [again d, again (applianceInjection (slotsOf I b)).sum] := by
          constructor
          · intro x hx q v hv
            simp only [again, List.map_cons, List.map_nil, List.mem_cons, List.not_mem_nil, or_false] at hx
            rcases hx with rfl | rfl
            · simp only [Option.some.injEq] at hv
              rw [← hv]
              exact (hd d e q).1
            · simp only [Option.some.injEq] at hv
              rw [← hv]
              exact lt_of_le_of_ne (ha q).1 (Ne.symm (hz.1 q))
          · intro x hx q v hv
            simp only [again, List.map_cons, List.map_nil, List.mem_cons, List.not_mem_nil, or_false] at hx
            rcases hx with rfl | rfl
            · simp only [Option.some.injEq] at hv
              rw [← hv]
              exact (hd d e q).2
            · simp only [Option.some.injEq] at hv
              rw [← hv]
              exact lt_of_le_of_ne (ha q).2 (Ne.symm (hz.2 q))
        have := powerOf_pos hpos hm p
        exact ⟨this.1.le, this.2.le⟩

theorem voltOf_pos {l : List (Voltage (Fin s.phases) ℝ)} (hl : ∀ m ∈ l, ∀ v, m.variance = some v → 0 < v) {m : VoltM s} (hm : voltOf l = some m) :
    0 < m.var := by
  have key : ∀ {V : Type} [AddCommGroup V] [Module ℝ V] (f : Voltage (Fin s.phases) ℝ → Unit → V) (var : ℝ),
      (combine (l.map fun m => (⟨f m, fun _ => m.variance⟩ : RandVar Unit V ℝ))).variance () = some var → 0 < var := by
    intro V _ _ f var h
    have hp : Positive (l.map fun m => (⟨f m, fun _ => m.variance⟩ : RandVar Unit V ℝ)) := by
      intro x hx p v hv
      obtain ⟨m, hm, rfl⟩ := List.mem_map.mp hx
      exact hl m hm v hv
    by_cases hf : HasFinite (l.map fun m => (⟨f m, fun _ => m.variance⟩ : RandVar Unit V ℝ)) ()
    · obtain ⟨_, v, _, h2, h3, _⟩ := combine_weighted_mean _ hp (fun _ => hf) ()
      rw [h2] at h
      injection h with h
      exact h ▸ h3
    · rw [combine_unmeasured _ hp () hf ()] at h
      cases h
  unfold voltOf combineVoltage at hm
  split_ifs at hm with hi
  · simp only at hm
    split at hm
    · rename_i v var e
      injection e with e1 e2
      injection hm with hm
      rw [← hm]
      exact key _ _ e2
    · rename_i e
      injection e with e1 e2
      cases e1
    · cases hm
  · simp only at hm
    split at hm
    · rename_i e
      injection e with e1 e2
      cases e1
    · rename_i v var e
      injection e with e1 e2
      injection hm with hm
      rw [← hm]
      exact key _ _ e2
    · cases hm

/-- The merged measurements of sensors with positive variances are meaningful. -/
theorem merged_valid (T : Topo) {I : SeInput s} (hI : I.Valid) : (merged T I).Valid where
  voltage b m h := voltOf_pos (hI.voltage b) h
  injection b m h p := by
    simp only [merged, Option.map_eq_some_iff] at h
    obtain ⟨m', h1, rfl⟩ := h
    exact add_nonneg (injectionOf_nonneg hI h1 p).1 (injectionOf_nonneg hI h1 p).2
  shunt k m h p := by
    simp only [merged, Option.map_eq_some_iff] at h
    obtain ⟨m', h1, rfl⟩ := h
    exact add_pos (powerOf_pos (hI.shunt k) h1 p).1 (powerOf_pos (hI.shunt k) h1 p).2
  power side k m h p := by
    simp only [merged, Option.map_eq_some_iff] at h
    obtain ⟨m', h1, rfl⟩ := h
    exact add_pos (powerOf_pos (hI.branchPower side k) h1 p).1 (powerOf_pos (hI.branchPower side k) h1 p).2
  current side k m h p := by
    simp only [merged, currentOr, currentOf] at h
    split_ifs at h with hs
    · cases h
    · split at h
      · cases h
      · split at h
        · rename_i m' e
          simp only [Option.getD_some, Option.some.injEq] at h
          subst h
          have := processOne_pos (hI.branchCurrent side k) e p
          exact add_pos this.1 this.2
        · cases h

/-- A bus without connected appliances is measured to have no injection, without doubt. -/
theorem injectionOf_dead {I : SeInput s} {b : Nat} (hb : ∀ a ∈ I.appliances b, a.1 = false) : injectionOf I b = some PQ.zero := by
  have hs : ∀ x ∈ slotsOf I b, x = .disconnected := by
    intro x hx
    obtain ⟨a, ha, rfl⟩ := List.mem_map.mp hx
    unfold processOne
    rw [hb a ha]
    rfl
  have hi : applianceInjection (slotsOf I b) = ⟨PQ.zero, 0⟩ := by
    unfold applianceInjection
    revert hs
    generalize slotsOf I b = l
    intro hs
    induction l with
    | nil => rfl
    | cons x l ih =>
      rw [List.foldl_cons, hs x List.mem_cons_self]
      exact ih fun y hy => hs y (List.mem_cons_of_mem _ hy)
  unfold injectionOf busMeasurement
  rw [hi]
  simp only [gt_iff_lt, lt_irrefl, if_false]
  cases powerOf true (I.injection b) with
  | none => rfl
  | some d =>
    simp only
    rw [if_pos (Or.inl ⟨Classical.arbitrary _, rfl⟩)]

theorem slots_dead {I : SeInput s} {b : Nat} (h : ¬ SomeConnected (slotsOf I b)) : ∀ a ∈ I.appliances b, a.1 = false := by
  intro a ha
  by_contra hne
  rw [Bool.not_eq_false] at hne
  apply h
  refine ⟨processOne a.1 a.2, List.mem_map.mpr ⟨a, ha, rfl⟩, ?_⟩
  unfold processOne
  rw [hne]
  simp only [Bool.not_true, Bool.false_eq_true, if_false]
  split_ifs <;> simp

theorem nodalCurrent_scaled (T : Topo) (P : Param (CM s)) (b : Nat) (w : Nat → CV s) (c : ℂ) :
    nodalCurrent T P (fun b p => w b p * c) b = fun p => nodalCurrent T P w b p * c := by
  unfold nodalCurrent
  funext p
  rw [Finset.sum_apply, Finset.sum_apply, Finset.sum_mul]
  refine Finset.sum_congr rfl fun k _ => ?_
  simp only [Matrix.mulVec, dotProduct, Finset.sum_mul, mul_assoc]

theorem busCurrent_nodal {N : SeNet s} (hN : N.Valid) (u : Nat → CV s) {b : Nat} (hb : b < N.T.nBus) :
    busCurrent N.S N.y (PowerFlow.dot s) u b = nodalCurrent N.T N.y.param u b := by
  rw [busCurrent_eq hN.topo hN.structure_ hN.coherent _ u b hb]
  rfl

/-- The loop only returns voltages of an iteration. -/
theorem loop_last {N : SeNet s} (hN : N.Valid) {M : Measured s} (hM : M.Valid) {use : Bool} {old : List (Gain s)}
    (hold : old.length = N.S.colIndicesLu.length) {perms : List (BlockPerm (s.phases + s.phases))} (hlen : perms.length = N.T.nBus)
    {f : Factors ℂ (s.phases + s.phases)} (hf : prefactorize (luPattern N.S) use (gainData N M old) perms = .ok f)
    (hex : f.perturbed = false ∨ use = false) {tol : ℝ} {maxIter : Nat} {start u : Nat → CV s}
    (h : seLoop N M f (gainData N M old) tol maxIter start = .ok u) :
    ∃ v w, IsEstimate N.T.nBus (solvedTerms N.T N.y.param M v) w ∧ ∃ c : ℂ, ∀ b, u b = fun p => w b p * c := by
  induction maxIter generalizing start with
  | zero => exact absurd h (by simp [seLoop])
  | succ left ih =>
    obtain ⟨w, u', h1, h2, _, h3⟩ := iteration_core hN hM hold hlen hf hex start
    unfold seLoop at h
    rw [h2] at h
    simp only at h
    split_ifs at h with hd
    · exact ih h
    · injection h with h
      subst h
      exact ⟨_, w, h1, h3⟩

/-- At a bus that is known to have no injection, none is estimated. -/
theorem dead_bus {N : SeNet s} {M : Measured s} {v w : Nat → CV s} (h : Feasible (solvedTerms N.T N.y.param M v) w) {b : Nat} (hb : b < N.T.nBus)
    {m : PowerM s} (hm : M.injection b = some m) (hz : m.value = 0) (hv : ∀ p, m.vp p + m.vq p = 0) : nodalCurrent N.T N.y.param w b = 0 := by
  funext p
  have := h ⟨fun u => nodalCurrent N.T N.y.param u b, asCurrent m (v b), m.vp + m.vq⟩ (by
    unfold solvedTerms injectionTerms
    refine List.mem_append_right _ (List.mem_filterMap.mpr ⟨b, List.mem_range.mpr hb, ?_⟩)
    rw [hm]
    rfl) p (hv p)
  refine this.trans ?_
  simp [asCurrent, hz]

/-! ## C18 -/

/-- **C18, the appliances balance the branches and the shunts.** In the result of a state estimation, at every bus and in every phase, the powers that
are reported for the appliances add up to the injection of the estimated state, which is the power that flows into the branches and the shunts of
the bus at the reported currents.

What is missing is estimations for which the factorisation has been perturbed: their zero injections are only met approximately. -/
theorem estimation_balances_partial {N : SeNet s} (hN : N.Valid) (shift : Nat → ℝ) {I : SeInput s} (hI : I.Valid)
    (hu : ∃ b, b < N.T.nBus ∧ (voltOf (I.voltage b)).isSome) {tol : ℝ} {maxIter : Nat} {old : List (Gain s)}
    (hold : old.length = N.S.colIndicesLu.length) {perms : List (BlockPerm (s.phases + s.phases))} (hlen : perms.length = N.T.nBus)
    (hex : (∀ obs, Observability.check N.T N.radial N.S (flags N.T (normalizeVariance N.T (merged N.T I))) ≠ .returns obs true) ∨
      ∀ f, prefactorize (luPattern N.S) true (gainData N (normalizeVariance N.T (merged N.T I)) old) perms = .ok f → f.perturbed = false)
    {out : SeOutput s} (h : runStateEstimation N shift I tol maxIter old perms = .ok out) (b : Nat) (hb : b < N.T.nBus) (p : Fin s.phases) :
    ((out.appliances b).map fun x => x.p p).sum = (out.busInjection b p).re ∧
    ((out.appliances b).map fun x => x.q p).sum = (out.busInjection b p).im ∧
    out.busInjection b p = out.u b p * star ((intoBranches N.T out.branch b - fromShunts N.T out.shunt b) p) := by
  unfold runStateEstimation at h
  split_ifs at h
  split at h
  · cases h
  rename_i u hrun
  injection h with h
  subst h
  have hthird : (seResult N I u).busInjection b p =
      (seResult N I u).u b p * star ((intoBranches N.T (seResult N I u).branch b - fromShunts N.T (seResult N I u).shunt b) p) := by
    simp only [seResult]
    rw [← busCurrent_is_flow_of hN.topo hN.structure_ hN.coherent (PowerFlow.dot s) u b hb, Pi.mul_apply, Pi.star_apply, mul_comm]
  by_cases hc : SomeConnected (slotsOf I b)
  · obtain ⟨h1, h2⟩ := flows_add_up_partial (slotsOf I b) ⟨fun p => ((seResult N I u).busInjection b p).re, fun p => ((seResult N I u).busInjection b p).im⟩
      (slots_ok hI b) hc p
    exact ⟨h1, h2, hthird⟩
  · have hdead := injectionOf_dead (slots_dead hc)
    have hM := merged_valid N.T hI
    obtain ⟨m, _, hm, _, e⟩ := normalize_scales hM hu
    have hc0 : 0 < 1 / m := by positivity
    have hN0 : (seResult N I u).busInjection b = 0 := by
      unfold seVoltages at hrun
      split at hrun
      · rename_i obs ill hcheck
        split at hrun
        · cases hrun
        · rename_i f hf
          have hp : f.perturbed = false ∨ (ill && obs) = false := by
            cases hu : (ill && obs) with
            | false => exact Or.inr rfl
            | true =>
              rw [Bool.and_eq_true] at hu
              rw [hu.1, hu.2] at hf
              exact Or.inl ((hex.resolve_left fun h => h obs (hu.1 ▸ hcheck)) f hf)
          clear hcheck
          rw [e] at hf hrun
          obtain ⟨v, w, h1, c, h2⟩ := loop_last hN (scaleVar_valid hc0 hM) hold hlen hf hp hrun
          have h3 := dead_bus h1.1 hb (m := { toPowerM PQ.zero with vp := fun p => (toPowerM (s := s) PQ.zero).vp p * (1 / m), vq := fun p => (toPowerM (s := s) PQ.zero).vq p * (1 / m) })
            (by simp only [scaleVar, merged, hdead]; rfl) (by funext p; exact Complex.ext rfl rfl) (fun p => by simp [toPowerM, PQ.zero])
          have h4 : nodalCurrent N.T N.y.param u b = 0 := by
            rw [show u = fun b p => w b p * c from funext h2, nodalCurrent_scaled, h3]
            funext p
            simp
          simp only [seResult]
          rw [busCurrent_nodal hN u hb, h4]
          simp
      · cases hrun
    have hz := flows_without_connected (slotsOf I b) ⟨fun p => ((seResult N I u).busInjection b p).re, fun p => ((seResult N I u).busInjection b p).im⟩ hc
    refine ⟨?_, ?_, hthird⟩
    · rw [hN0]
      refine List.sum_eq_zero fun x hx => ?_
      obtain ⟨y, hy, rfl⟩ := List.mem_map.mp hx
      rw [hz y hy]
    · rw [hN0]
      refine List.sum_eq_zero fun x hx => ?_
      obtain ⟨y, hy, rfl⟩ := List.mem_map.mp hx
      rw [hz y hy]

end PGM.StateEst
