import Verif.Measured.Statistics
import Mathlib.Tactic.LinearCombination

/-!
# Appliance measurements in state estimation (C18)

`P/math_solver/measured_values.hpp` lines 115-155 (`calculate_load_gen_source`), 316-404 (appliances and injections), 486-530
(`process_one_object`) and 592-640 (`calculate_non_over_determined_injection`, `calculate_over_determined_injection`).

Simplifications: one bus at a time; its load/generators and sources are one list in the order of the loops (the ranges of
different buses are disjoint, C03). An entry of `idx_load_gen_power_`/`idx_source_power_` together with the entry of
`extra_value_` that it refers to is a `Slot`. A complex power per phase is its pair of real and imaginary parts; the
currents `conj(s / u)` are not modelled.
-/

namespace PGM.Measured

variable {ι K : Type}

/-- A merged power measurement with finite variances, an entry of `extra_value_`. -/
structure PQ (ι K : Type) where
  p : ι → K
  q : ι → K
  vp : ι → K
  vq : ι → K

/-- What is known of an appliance: `disconnected`, `unmeasured`, or its measurement. -/
inductive Slot (ι K : Type) where
  | disconnected
  | unmeasured
  | measured (m : PQ ι K)

/-- A power per phase: real and imaginary part. -/
structure Power (ι K : Type) where
  p : ι → K
  q : ι → K

variable [Field K] [LinearOrder K] [IsStrictOrderedRing K]

/-- The finite numbers in a `Combined` (with a default for infinite ones, which `slot_finite` shows are not used). -/
def finiteOf (r : Combined ι K K) : (ι → K) × (ι → K) := (fun p => (r.value p).getD 0, fun p => (r.variance p).getD 0)

/-- `process_one_object`, `P/math_solver/measured_values.hpp` lines 499-530, for powers: `is_inf` of an asymmetric value is
true if any phase is infinite. -/
def processOne [Fintype ι] (status : Bool) (sensors : List (Decomposed ι K)) : Slot ι K :=
  if !status then .disconnected
  else if sensors.isEmpty then .unmeasured
  else
    let c := combineDecomposed sensors
    if (∃ p, c.1.variance p = none) ∨ (∃ p, c.2.variance p = none) then .unmeasured
    else .measured ⟨(finiteOf c.1).1, (finiteOf c.2).1, (finiteOf c.1).2, (finiteOf c.2).2⟩

/-- `appliance_injection_measurement` and `n_unmeasured`. -/
structure Injection (ι K : Type) where
  sum : PQ ι K
  nUnmeasured : Nat

/-- `PowerSensorCalcParam<sym>{}`. -/
def PQ.zero : PQ ι K := ⟨fun _ => 0, fun _ => 0, fun _ => 0, fun _ => 0⟩

/-- `add_appliance_measurements`, lines 383-404. The test for infinite variances never applies to a `Slot.measured`. -/
def addAppliance (a : Injection ι K) : Slot ι K → Injection ι K
  | .unmeasured => { a with nUnmeasured := a.nUnmeasured + 1 }
  | .disconnected => a
  | .measured m =>
    { a with sum := ⟨fun i => a.sum.p i + m.p i, fun i => a.sum.q i + m.q i, fun i => a.sum.vp i + m.vp i,
        fun i => a.sum.vq i + m.vq i⟩ }

/-- The loops of `combine_appliances_to_injection_measurements`, lines 335-347. -/
def applianceInjection (slots : List (Slot ι K)) : Injection ι K := slots.foldl addAppliance ⟨PQ.zero, 0⟩

/-- Which injection measurement of the bus is used, lines 354-377: `none` is `unmeasured`; `direct` is the merged direct
measurement, `none` if its variance is infinite. -/
inductive BusMeasurement (ι K : Type) where
  | none
  | direct (m : PQ ι K)
  | appliances (m : PQ ι K)
  | both (direct appliances : PQ ι K)

def busMeasurement [Fintype ι] (a : Injection ι K) (direct : Option (PQ ι K)) : BusMeasurement ι K :=
  if a.nUnmeasured > 0 then
    match direct with
    | Option.none => .none
    | some d => .direct d
  else
    match direct with
    | Option.none => .appliances a.sum
    | some d => if (∃ i, a.sum.vp i = 0) ∨ (∃ i, a.sum.vq i = 0) then .appliances a.sum else .both d a.sum

/-- `calculate_non_over_determined_injection`, lines 592-615, for one appliance. -/
def nonOverDetermined (a : Injection ι K) (s : Power ι K) : Slot ι K → Power ι K
  | .measured m => ⟨m.p, m.q⟩
  | .unmeasured => ⟨fun i => (s.p i - a.sum.p i) / a.nUnmeasured, fun i => (s.q i - a.sum.q i) / a.nUnmeasured⟩
  | .disconnected => ⟨fun _ => 0, fun _ => 0⟩

/-- `calculate_over_determined_injection`, lines 617-645, for one appliance. Unmeasured appliances do not occur. -/
def overDetermined (a : Injection ι K) (s : Power ι K) : Slot ι K → Power ι K
  | .measured m => ⟨fun i => m.p i - m.vp i * ((a.sum.p i - s.p i) / a.sum.vp i),
      fun i => m.q i - m.vq i * ((a.sum.q i - s.q i) / a.sum.vq i)⟩
  | .unmeasured => ⟨fun _ => 0, fun _ => 0⟩
  | .disconnected => ⟨fun _ => 0, fun _ => 0⟩

/-- `calculate_load_gen_source`, lines 115-150, for one bus with injection `s` of the estimated state: the powers of the
appliances. -/
def applianceFlows (slots : List (Slot ι K)) (s : Power ι K) : List (Power ι K) :=
  let a := applianceInjection slots
  slots.map (if a.nUnmeasured > 0 then nonOverDetermined a s else overDetermined a s)

/-! ## Specification -/

/-- All measured variances are positive. -/
def SlotsOk (slots : List (Slot ι K)) : Prop := ∀ m, .measured m ∈ slots → ∀ i, 0 < m.vp i ∧ 0 < m.vq i

/-- Some appliance is connected. -/
def SomeConnected (slots : List (Slot ι K)) : Prop := ∃ x ∈ slots, x ≠ .disconnected

/-- The measured values, in order. -/
def measurements : List (Slot ι K) → List (PQ ι K)
  | [] => []
  | .measured m :: l => m :: measurements l
  | _ :: l => measurements l

/-! ## Lemmas -/

/-- Number of unmeasured appliances. -/
def countUnmeasured : List (Slot ι K) → Nat
  | [] => 0
  | .unmeasured :: l => countUnmeasured l + 1
  | _ :: l => countUnmeasured l

theorem injection_from (slots : List (Slot ι K)) (a : Injection ι K) :
    (slots.foldl addAppliance a).nUnmeasured = a.nUnmeasured + countUnmeasured slots ∧ ∀ i,
    (slots.foldl addAppliance a).sum.p i = a.sum.p i + ((measurements slots).map (fun m => m.p i)).sum ∧
    (slots.foldl addAppliance a).sum.q i = a.sum.q i + ((measurements slots).map (fun m => m.q i)).sum ∧
    (slots.foldl addAppliance a).sum.vp i = a.sum.vp i + ((measurements slots).map (fun m => m.vp i)).sum ∧
    (slots.foldl addAppliance a).sum.vq i = a.sum.vq i + ((measurements slots).map (fun m => m.vq i)).sum := by
  induction slots generalizing a with
  | nil => simp [countUnmeasured, measurements]
  | cons x l ih =>
    rw [List.foldl_cons]
    obtain ⟨h1, h2⟩ := ih (addAppliance a x)
    cases x with
    | disconnected => simpa [addAppliance, countUnmeasured, measurements] using ⟨h1, h2⟩
    | unmeasured =>
      refine ⟨?_, ?_⟩
      · rw [h1]; simp [addAppliance, countUnmeasured]; omega
      · intro i; simpa [addAppliance, measurements] using h2 i
    | measured m =>
      refine ⟨?_, ?_⟩
      · rw [h1]; simp [addAppliance, countUnmeasured]
      · intro i
        obtain ⟨e1, e2, e3, e4⟩ := h2 i
        refine ⟨?_, ?_, ?_, ?_⟩
        · rw [e1]; simp [addAppliance, measurements, add_assoc]
        · rw [e2]; simp [addAppliance, measurements, add_assoc]
        · rw [e3]; simp [addAppliance, measurements, add_assoc]
        · rw [e4]; simp [addAppliance, measurements, add_assoc]

theorem injection_eq (slots : List (Slot ι K)) :
    (applianceInjection slots).nUnmeasured = countUnmeasured slots ∧ ∀ i,
    (applianceInjection slots).sum.p i = ((measurements slots).map (fun m => m.p i)).sum ∧
    (applianceInjection slots).sum.q i = ((measurements slots).map (fun m => m.q i)).sum ∧
    (applianceInjection slots).sum.vp i = ((measurements slots).map (fun m => m.vp i)).sum ∧
    (applianceInjection slots).sum.vq i = ((measurements slots).map (fun m => m.vq i)).sum := by
  have := injection_from slots ⟨PQ.zero, 0⟩
  simpa [applianceInjection, PQ.zero] using this

theorem mem_measurements {slots : List (Slot ι K)} {m : PQ ι K} : m ∈ measurements slots ↔ .measured m ∈ slots := by
  induction slots with
  | nil => simp [measurements]
  | cons x l ih => cases x <;> simp [measurements, ih]

theorem count_pos {slots : List (Slot ι K)} : 0 < countUnmeasured slots ↔ .unmeasured ∈ slots := by
  induction slots with
  | nil => simp [countUnmeasured]
  | cons x l ih => cases x <;> simp [countUnmeasured, ih]

/-- Sum over slots of a function that is linear in the measured and constant in the unmeasured appliances. -/
theorem sum_slots (slots : List (Slot ι K)) (f : PQ ι K → K) (c : K) (g : Slot ι K → K) (h1 : ∀ m, g (.measured m) = f m)
    (h2 : g .unmeasured = c) (h3 : g .disconnected = 0) :
    (slots.map g).sum = ((measurements slots).map f).sum + countUnmeasured slots * c := by
  induction slots with
  | nil => simp [measurements, countUnmeasured]
  | cons x l ih =>
    cases x with
    | disconnected => simp [measurements, countUnmeasured, ih, h3]
    | unmeasured => simp [measurements, countUnmeasured, ih, h2]; ring
    | measured m => simp [measurements, countUnmeasured, ih, h1]; ring

theorem sum_sub_mul (l : List (PQ ι K)) (f g : PQ ι K → K) (c : K) :
    (l.map fun m => f m - g m * c).sum = (l.map f).sum - (l.map g).sum * c := by
  induction l with
  | nil => simp
  | cons m l ih => simp [ih]; ring

theorem sum_pos_of (l : List (PQ ι K)) (f : PQ ι K → K) (h : ∀ m ∈ l, 0 < f m) (hne : l ≠ []) : 0 < (l.map f).sum := by
  induction l with
  | nil => exact absurd rfl hne
  | cons m l ih =>
    rw [List.map_cons, List.sum_cons]
    by_cases hl : l = []
    · subst hl; simpa using h m (by simp)
    · have h1 := ih (fun m' hm' => h m' (by simp [hm'])) hl
      have h2 := h m (by simp)
      linarith

theorem measurements_ne {slots : List (Slot ι K)} (hc : SomeConnected slots) (hu : countUnmeasured slots = 0) :
    measurements slots ≠ [] := by
  obtain ⟨x, hx, hne⟩ := hc
  cases x with
  | disconnected => exact absurd rfl hne
  | unmeasured => have := count_pos.mpr hx; omega
  | measured m => intro h; have := mem_measurements.mpr hx; rw [h] at this; cases this

/-! ## C18 -/

/-- C18, with the one condition that some appliance at the bus is connected. The powers reported for the appliances of a bus
add up to the injection of the estimated state, in every phase. Missing for the full property: without a connected
appliance the sum is zero (`flows_without_connected`), which is the injection of the estimated state only as far as the
solver satisfies the zero-injection constraint. -/
theorem flows_add_up_partial (slots : List (Slot ι K)) (s : Power ι K) (hok : SlotsOk slots) (hc : SomeConnected slots) (i : ι) :
    ((applianceFlows slots s).map (fun x => x.p i)).sum = s.p i ∧ ((applianceFlows slots s).map (fun x => x.q i)).sum = s.q i := by
  obtain ⟨hn, hs⟩ := injection_eq slots
  obtain ⟨e1, e2, e3, e4⟩ := hs i
  unfold applianceFlows
  simp only
  by_cases hu : (applianceInjection slots).nUnmeasured > 0
  · simp only [if_pos hu, List.map_map]
    have hu0 : (countUnmeasured slots : K) ≠ 0 := by rw [hn] at hu; exact_mod_cast hu.ne'
    constructor
    · rw [sum_slots slots (fun m => m.p i) ((s.p i - (applianceInjection slots).sum.p i) / (applianceInjection slots).nUnmeasured)
        _ (fun m => rfl) rfl rfl, hn, e1]
      field_simp
      ring
    · rw [sum_slots slots (fun m => m.q i) ((s.q i - (applianceInjection slots).sum.q i) / (applianceInjection slots).nUnmeasured)
        _ (fun m => rfl) rfl rfl, hn, e2]
      field_simp
      ring
  · simp only [if_neg hu, List.map_map]
    have hu0 : countUnmeasured slots = 0 := by rw [hn] at hu; omega
    have hne := measurements_ne hc hu0
    have p1 := sum_pos_of (measurements slots) (fun m => m.vp i) (fun m hm => (hok m (mem_measurements.mp hm) i).1) hne
    have p2 := sum_pos_of (measurements slots) (fun m => m.vq i) (fun m hm => (hok m (mem_measurements.mp hm) i).2) hne
    constructor
    · rw [sum_slots slots (fun m => m.p i - m.vp i * (((applianceInjection slots).sum.p i - s.p i) / (applianceInjection slots).sum.vp i))
        0 _ (fun m => rfl) rfl rfl, sum_sub_mul, hu0, e1, e3]
      rw [mul_div_assoc', mul_div_cancel_left₀ _ p1.ne']
      simp
    · rw [sum_slots slots (fun m => m.q i - m.vq i * (((applianceInjection slots).sum.q i - s.q i) / (applianceInjection slots).sum.vq i))
        0 _ (fun m => rfl) rfl rfl, sum_sub_mul, hu0, e2, e4]
      rw [mul_div_assoc', mul_div_cancel_left₀ _ p2.ne']
      simp

omit [IsStrictOrderedRing K] in
/-- C18. A disconnected appliance gets zero power. -/
theorem flows_disconnected (slots : List (Slot ι K)) (s : Power ι K) (k : Nat) (h : slots[k]? = some .disconnected) :
    (applianceFlows slots s)[k]? = some ⟨fun _ => 0, fun _ => 0⟩ := by
  unfold applianceFlows
  simp only [List.getElem?_map, h, Option.map_some]
  split <;> rfl

omit [IsStrictOrderedRing K] in
/-- C18. Without a connected appliance all powers are zero. -/
theorem flows_without_connected (slots : List (Slot ι K)) (s : Power ι K) (hc : ¬ SomeConnected slots) :
    ∀ x ∈ applianceFlows slots s, x = ⟨fun _ => 0, fun _ => 0⟩ := by
  intro x hx
  unfold applianceFlows at hx
  obtain ⟨y, hy, rfl⟩ := List.mem_map.mp hx
  have : y = .disconnected := by
    by_contra h
    exact hc ⟨y, hy, h⟩
  subst this
  split <;> rfl

/-- C18. As long as some appliance of the bus is not measured, the measured ones report their measurement. -/
theorem flows_measured_reported (slots : List (Slot ι K)) (s : Power ι K) (hu : .unmeasured ∈ slots) (k : Nat) (m : PQ ι K)
    (h : slots[k]? = some (.measured m)) : (applianceFlows slots s)[k]? = some ⟨m.p, m.q⟩ := by
  unfold applianceFlows
  have hn := (injection_eq slots).1
  have : (applianceInjection slots).nUnmeasured > 0 := by rw [hn]; exact count_pos.mpr hu
  simp only [List.getElem?_map, h, Option.map_some, if_pos this, nonOverDetermined]

/-- C18. If all appliances are measured and the measurements add up to the injection of the estimated state, every appliance
reports its measurement. -/
theorem flows_consistent_reported (slots : List (Slot ι K)) (s : Power ι K)
    (hs : ∀ i, ((measurements slots).map (fun m => m.p i)).sum = s.p i ∧ ((measurements slots).map (fun m => m.q i)).sum = s.q i)
    (k : Nat) (m : PQ ι K) (h : slots[k]? = some (.measured m)) : (applianceFlows slots s)[k]? = some ⟨m.p, m.q⟩ := by
  unfold applianceFlows
  simp only [List.getElem?_map, h, Option.map_some]
  split
  · rfl
  · simp only [overDetermined, Option.some.injEq, Power.mk.injEq]
    constructor <;> funext i
    · rw [((injection_eq slots).2 i).1, (hs i).1]; simp
    · rw [((injection_eq slots).2 i).2.1, (hs i).2]; simp

/-- C18. If all connected appliances are measured, the reported powers are the best compromise: among all powers that add up
to the injection, they minimise the sum of the squared deviations from the measurements, weighted with the inverse
variances. Stated for the real part of phase `i` (the imaginary part is handled in the same way). -/
theorem flows_optimal (slots : List (Slot ι K)) (s : Power ι K) (hok : SlotsOk slots) (hu : .unmeasured ∉ slots)
    (i : ι) (x : PQ ι K → K) (hx : ((measurements slots).map x).sum = s.p i) :
    let f := fun m : PQ ι K => (overDetermined (applianceInjection slots) s (.measured m)).p i
    ((measurements slots).map fun m => (f m - m.p i) ^ 2 / m.vp i).sum ≤
      ((measurements slots).map fun m => (x m - m.p i) ^ 2 / m.vp i).sum := by
  intro f
  by_cases hne : measurements slots = []
  · simp [hne]
  have hu0 : countUnmeasured slots = 0 := by
    rcases Nat.eq_zero_or_pos (countUnmeasured slots) with h | h
    · exact h
    · exact absurd (count_pos.mp h) hu
  obtain ⟨e1, _, e3, _⟩ := (injection_eq slots).2 i
  set μ := ((applianceInjection slots).sum.p i - s.p i) / (applianceInjection slots).sum.vp i with hμ
  have hf : ∀ m, f m = m.p i - m.vp i * μ := fun m => rfl
  have p1 := sum_pos_of (measurements slots) (fun m => m.vp i) (fun m hm => (hok m (mem_measurements.mp hm) i).1) hne
  have hsumf : ((measurements slots).map f).sum = s.p i := by
    have : ((measurements slots).map f) = (measurements slots).map fun m => m.p i - m.vp i * μ := by
      apply List.map_congr_left; intro m _; exact hf m
    rw [this, sum_sub_mul, hμ, e1, e3, mul_div_assoc', mul_div_cancel_left₀ _ p1.ne']
    ring
  -- pointwise: (x-p)²/v ≥ (f-p)²/v - 2 μ (x - f)
  have key : ∀ l : List (PQ ι K), (∀ m ∈ l, 0 < m.vp i) →
      (l.map fun m => (f m - m.p i) ^ 2 / m.vp i).sum - 2 * μ * ((l.map x).sum - (l.map f).sum) ≤
        (l.map fun m => (x m - m.p i) ^ 2 / m.vp i).sum := by
    intro l hl
    induction l with
    | nil => simp
    | cons m l ih =>
      have ih' := ih (fun m' hm' => hl m' (by simp [hm']))
      have hv := hl m (by simp)
      simp only [List.map_cons, List.sum_cons]
      have hpt : (f m - m.p i) ^ 2 / m.vp i - 2 * μ * (x m - f m) ≤ (x m - m.p i) ^ 2 / m.vp i := by
        have e : (x m - m.p i) ^ 2 / m.vp i - ((f m - m.p i) ^ 2 / m.vp i - 2 * μ * (x m - f m)) =
            (x m - f m) ^ 2 / m.vp i := by
          rw [hf m]
          field_simp
          ring
        have : 0 ≤ (x m - f m) ^ 2 / m.vp i := by positivity
        linarith
      linarith
  have := key (measurements slots) (fun m hm => (hok m (mem_measurements.mp hm) i).1)
  rw [hx, hsumf] at this
  linarith

/-- C18/C19. A slot holds a measurement exactly if the appliance is connected and all components have a sensor with finite
variance; its numbers are then the merged measurement, and finite. -/
theorem slot_finite [Fintype ι] [Nonempty ι] (status : Bool) (sensors : List (Decomposed ι K))
    (hr : Positive (sensors.map (·.re))) (hi : Positive (sensors.map (·.im))) :
    (status = false → processOne status sensors = .disconnected) ∧
    (status = true → (∀ p, HasFinite (sensors.map (·.re)) p ∧ HasFinite (sensors.map (·.im)) p) →
      ∃ m, processOne status sensors = .measured m ∧ ∀ p,
        (combine (sensors.map (·.re))).value p = some (m.p p) ∧ (combine (sensors.map (·.re))).variance p = some (m.vp p) ∧
        (combine (sensors.map (·.im))).value p = some (m.q p) ∧ (combine (sensors.map (·.im))).variance p = some (m.vq p) ∧
        0 < m.vp p ∧ 0 < m.vq p) ∧
    (status = true → (∃ p, ¬ (HasFinite (sensors.map (·.re)) p ∧ HasFinite (sensors.map (·.im)) p)) →
      processOne status sensors = .unmeasured) := by
  obtain ⟨c1, c2⟩ := combineDecomposed_parts sensors hr hi
  refine ⟨?_, ?_, ?_⟩
  · rintro rfl; rfl
  · rintro rfl hf
    have hne : sensors.isEmpty = false := by
      cases sensors with
      | nil =>
        obtain ⟨p⟩ := ‹Nonempty ι›
        obtain ⟨⟨m, hm, _⟩, _⟩ := hf p
        cases hm
      | cons a l => rfl
    unfold processOne
    simp only [Bool.not_true, Bool.false_eq_true, if_false, hne]
    rw [c1 hf]
    have g1 := fun p => combine_weighted_mean _ hr (fun p => (hf p).1) p
    have g2 := fun p => combine_weighted_mean _ hi (fun p => (hf p).2) p
    rw [if_neg]
    · refine ⟨_, rfl, ?_⟩
      intro p
      obtain ⟨v, s, h1, h2, h3, _⟩ := g1 p
      obtain ⟨v', s', h1', h2', h3', _⟩ := g2 p
      simp only [finiteOf, h1, h2, h1', h2', Option.getD_some]
      exact ⟨trivial, trivial, trivial, trivial, h3, h3'⟩
    · rintro (⟨p, h⟩ | ⟨p, h⟩)
      · obtain ⟨v, s, _, h2, _⟩ := g1 p
        simp only at h; rw [h2] at h; cases h
      · obtain ⟨v, s, _, h2, _⟩ := g2 p
        simp only at h; rw [h2] at h; cases h
  · rintro rfl ⟨p, hf⟩
    unfold processOne
    simp only [Bool.not_true, Bool.false_eq_true, if_false]
    by_cases hne : sensors.isEmpty
    · simp [hne]
    · simp only [hne]
      rw [if_neg (by simp), if_pos]
      exact .inl ⟨p, (c2 p hf p).1⟩

omit [IsStrictOrderedRing K] in
/-- C18. A bus has an injection measurement exactly if it is measured directly or all its connected appliances are. -/
theorem bus_measured_iff [Fintype ι] (slots : List (Slot ι K)) (direct : Option (PQ ι K)) :
    busMeasurement (applianceInjection slots) direct ≠ .none ↔ direct ≠ none ∨ .unmeasured ∉ slots := by
  have hn : (applianceInjection slots).nUnmeasured > 0 ↔ .unmeasured ∈ slots := by
    have h : ∀ (l : List (Slot ι K)) (a : Injection ι K), (l.foldl addAppliance a).nUnmeasured = a.nUnmeasured + countUnmeasured l := by
      intro l
      induction l with
      | nil => simp [countUnmeasured]
      | cons x l ih => intro a; rw [List.foldl_cons, ih]; cases x <;> simp [addAppliance, countUnmeasured]; omega
    have hc : ∀ l : List (Slot ι K), 0 < countUnmeasured l ↔ .unmeasured ∈ l := by
      intro l
      induction l with
      | nil => simp [countUnmeasured]
      | cons x l ih => cases x <;> simp [countUnmeasured, ih]
    unfold applianceInjection
    rw [h]
    simpa using hc slots
  unfold busMeasurement
  by_cases hu : Slot.unmeasured ∈ slots
  · rw [if_pos (hn.mpr hu)]
    cases direct <;> simp [hu]
  · rw [if_neg (fun h => hu (hn.mp h))]
    cases direct with
    | none => simp [hu]
    | some d =>
      simp only [hu, not_false_eq_true, or_true, iff_true]
      split <;> simp

/-! Non-vacuity: three appliances, one of them disconnected, with measurements 10 and 20 (variances 1 and 4). -/

private def m1 : PQ Unit ℚ := ⟨fun _ => 10, fun _ => 1, fun _ => 1, fun _ => 1⟩
private def m2 : PQ Unit ℚ := ⟨fun _ => 20, fun _ => 2, fun _ => 4, fun _ => 1⟩

example : SlotsOk [.measured m1, .disconnected, .measured m2] ∧ SomeConnected [.measured m1, .disconnected, .measured m2] := by
  constructor
  · intro m hm i
    simp only [List.mem_cons, Slot.measured.injEq, reduceCtorEq, List.not_mem_nil, or_false, false_or] at hm
    rcases hm with rfl | rfl <;> constructor <;> norm_num [m1, m2]
  · exact ⟨.measured m1, by simp, by simp⟩

/-- The injection of the estimated state is 35: the difference of 5 is shared 1 : 4. -/
example : (applianceFlows [.measured m1, .disconnected, .measured m2] ⟨fun _ => 35, fun _ => 3⟩).map (fun x => x.p ()) = [11, 0, 24] := by
  norm_num [applianceFlows, applianceInjection, addAppliance, PQ.zero, m1, m2, overDetermined]

example : (applianceFlows [.measured m1, .unmeasured, .unmeasured] ⟨fun _ => 16, fun _ => 3⟩).map (fun x => x.p ()) = [10, 3, 3] := by
  norm_num [applianceFlows, applianceInjection, addAppliance, PQ.zero, m1, nonOverDetermined]

end PGM.Measured
