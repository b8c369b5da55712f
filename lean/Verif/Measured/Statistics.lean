import Mathlib.Algebra.Order.Field.Basic
import Mathlib.Algebra.Order.BigOperators.Group.List
import Mathlib.Algebra.BigOperators.Group.List.Basic
import Mathlib.Algebra.Module.LinearMap.Basic
import Mathlib.Algebra.Module.Prod
import Mathlib.Algebra.Order.Ring.Rat
import Mathlib.Data.Fintype.Basic
import Mathlib.Tactic.Common
import Mathlib.Tactic.Linarith
import Mathlib.Tactic.Positivity
import Mathlib.Tactic.FieldSimp
import Mathlib.Tactic.Ring
import Mathlib.Tactic.NormNum

/-!
# Merging measurements (C19)

`P/common/statistics.hpp` lines 270-396 and `P/math_solver/measured_values.hpp` lines 240-290 (voltages) and 437-478
(`combine_measurements`).

The numbers are elements of a linearly ordered field `K` (exact arithmetic). Values are vectors over `K`: `V = K` for real
values, `V = K × K` for complex values. The type `ι` enumerates the separate variances of a measurement: one for the
`Uniform…RandVar` types and for all symmetric types, three for the asymmetric `Independent…RandVar` types.

An infinite variance is `none`. Division by a zero variance gives infinity or NaN; this is `none` in accumulators and
results. Simplification: `is_normal` also rejects denormal numbers, which do not exist in exact arithmetic.
-/

namespace PGM.Measured

variable {ι V K : Type}

/-- A measurement: `.value` and `.variance`. -/
structure RandVar (ι V K : Type) where
  value : ι → V
  variance : ι → Option K

/-- A result of `combine`: the value may be infinite or NaN (`none`). -/
structure Combined (ι V K : Type) where
  value : ι → Option V
  variance : ι → Option K

section
variable [Field K] [LinearOrder K] [IsStrictOrderedRing K] [AddCommGroup V] [Module K V]

/-- `VarianceType{1.0} / measurement.variance`. -/
def invVar : Option K → Option K
  | none => some 0
  | some s => if s = 0 then none else some s⁻¹

/-- `measurement.value / measurement.variance`. -/
def weighted (v : V) : Option K → Option V
  | none => some 0
  | some s => if s = 0 then none else some (s⁻¹ • v)

/-- `+=` on numbers that may be infinite or NaN. -/
def addO {A : Type} [Add A] : Option A → Option A → Option A
  | some a, some b => some (a + b)
  | _, _ => none

/-- The accumulators: `accumulated_inverse_variance`, `weighted_accumulated_value`. -/
abbrev Acc (ι V K : Type) := (ι → Option K) × (ι → Option V)

/-- The body of `for_each`, lines 333-337. -/
def accStep (a : Acc ι V K) (m : RandVar ι V K) : Acc ι V K :=
  (fun p => addO (a.1 p) (invVar (m.variance p)), fun p => addO (a.2 p) (weighted (m.value p) (m.variance p)))

/-- The accumulators after all measurements, lines 330-337. -/
def accumulate (l : List (RandVar ι V K)) : Acc ι V K := l.foldl accStep (fun _ => some 0, fun _ => some 0)

/-- `is_normal`, `P/common/three_phase_tensor.hpp` lines 380-392, for one number. -/
def isNormal : Option K → Bool
  | none => false
  | some x => x ≠ 0

/-- `combine`, `P/common/statistics.hpp` lines 316-346. -/
def combine [Fintype ι] (l : List (RandVar ι V K)) : Combined ι V K :=
  let a := accumulate l
  if ∀ p, isNormal (a.1 p) = true then
    { value := fun p => match a.1 p, a.2 p with
        | some i, some w => some (i⁻¹ • w)
        | _, _ => none
      variance := fun p => (a.1 p).map fun i => i⁻¹ }
  else
    { value := a.2
      variance := fun _ => none }

/-- `DecomposedComplexRandVar`. -/
structure Decomposed (ι K : Type) where
  re : RandVar ι K K
  im : RandVar ι K K

/-- `combine` of decomposed random variables, lines 348-367. -/
def combineDecomposed [Fintype ι] (l : List (Decomposed ι K)) : Combined ι K K × Combined ι K K :=
  let r := combine (l.map (·.re))
  let i := combine (l.map (·.im))
  if (∀ p, isNormal (r.variance p) = true) ∧ (∀ p, isNormal (i.variance p) = true) then (r, i)
  else ({ r with variance := fun _ => none }, { i with variance := fun _ => none })

/-- `scale` with a real factor, lines 252-258. -/
def scale (c : K) (m : RandVar ι V K) : RandVar ι V K :=
  { value := fun p => c • m.value p, variance := fun p => (m.variance p).map fun s => s * (c * c) }

/-- A measured voltage, `VoltageSensorCalcParam`: one variance for all phases; the imaginary part is NaN (`none`) when there is
no angle (`P/component/voltage_sensor.hpp` lines 129-150: in all phases or in none). -/
structure Voltage (ι K : Type) where
  re : ι → K
  im : Option (ι → K)
  variance : Option K

/-- `detail::cabs_or_real`, lines 370-375; `cabs` is the absolute value of a complex number. -/
def cabsOrReal (cabs : K → K → K) (m : Voltage ι K) : ι → K :=
  match m.im with
  | none => m.re
  | some im => fun p => cabs (m.re p) (im p)

/-- A merged voltage: magnitudes only, or phasors. -/
inductive MergedValue (ι K : Type) where
  | magnitude (v : Option (ι → K))
  | phasor (v : Option (ι → K × K))

/-- `process_bus_voltage_measurements`, `P/math_solver/measured_values.hpp` lines 266-284, with `combine_measurements` lines
437-449 and `combine_magnitude`, `P/common/statistics.hpp` lines 378-396: if any of the sensors has no angle, the
magnitudes are merged, otherwise the phasors. -/
def combineVoltage (cabs : K → K → K) (l : List (Voltage ι K)) : MergedValue ι K × Option K :=
  if l.any (fun m => m.im.isNone) then
    let r := combine (ι := Unit) (V := ι → K) (l.map fun m => ⟨fun _ => cabsOrReal cabs m, fun _ => m.variance⟩)
    (.magnitude (r.value ()), r.variance ())
  else
    let r := combine (ι := Unit) (V := ι → K × K)
      (l.map fun m => ⟨fun _ p => (m.re p, (m.im.getD fun _ => 0) p), fun _ => m.variance⟩)
    (.phasor (r.value ()), r.variance ())

/-- `CurrentSensorCalcParam`. -/
structure Current (ι K : Type) where
  globalAngle : Bool
  measurement : Decomposed ι K

/-- `combine_measurements` of current sensors, `P/math_solver/measured_values.hpp` lines 456-471; `none` is
`ConflictingAngleMeasurementType`. -/
def combineCurrent [Fintype ι] (l : List (Current ι K)) : Option (Bool × (Combined ι K K × Combined ι K K)) :=
  let t := match l with
    | [] => false
    | c :: _ => c.globalAngle
  if l.any (fun c => c.globalAngle != t) then none
  else some (t, combineDecomposed (l.map (·.measurement)))

/-! ## Specification -/

/-- The weight of a measurement: the inverse of its variance, zero if that is infinite. -/
def weight : Option K → K
  | none => 0
  | some s => 1 / s

/-- Total weight of the measurements of component `p`. -/
def totalWeight (l : List (RandVar ι V K)) (p : ι) : K := (l.map fun m => weight (m.variance p)).sum

/-- Weighted sum of the measurements of component `p`. -/
def weightedSum (l : List (RandVar ι V K)) (p : ι) : V := (l.map fun m => weight (m.variance p) • m.value p).sum

/-- All variances are positive or infinite. -/
def Positive (l : List (RandVar ι V K)) : Prop := ∀ m ∈ l, ∀ p s, m.variance p = some s → 0 < s

/-- Component `p` has a measurement with finite variance. -/
def HasFinite (l : List (RandVar ι V K)) (p : ι) : Prop := ∃ m ∈ l, ∃ s, m.variance p = some s

/-! ## Lemmas -/

theorem addO_some {A : Type} [Add A] {a b : Option A} {c : A} : addO a b = some c ↔ ∃ x y, a = some x ∧ b = some y ∧ x + y = c := by
  cases a <;> cases b <;> simp [addO]

theorem addO_comm {A : Type} [AddCommSemigroup A] (a b : Option A) : addO a b = addO b a := by
  cases a <;> cases b <;> simp [addO, add_comm]

theorem addO_right_comm {A : Type} [AddCommSemigroup A] (a b c : Option A) : addO (addO a b) c = addO (addO a c) b := by
  cases a <;> cases b <;> cases c <;> simp [addO, add_right_comm]

theorem accStep_comm (a : Acc ι V K) (m n : RandVar ι V K) : accStep (accStep a m) n = accStep (accStep a n) m := by
  simp only [accStep, Prod.mk.injEq]
  exact ⟨funext fun p => addO_right_comm _ _ _, funext fun p => addO_right_comm _ _ _⟩

theorem accumulate_perm {l l' : List (RandVar ι V K)} (h : l.Perm l') : accumulate l = accumulate l' := by
  unfold accumulate
  exact h.foldl_eq' (fun m _ n _ a => accStep_comm a m n) _

theorem invVar_pos {o : Option K} (h : ∀ s, o = some s → 0 < s) : invVar o = some (weight o) := by
  cases o with
  | none => rfl
  | some s =>
    have := h s rfl
    simp only [invVar, if_neg this.ne', weight, one_div]

theorem weighted_pos (v : V) {o : Option K} (h : ∀ s, o = some s → 0 < s) : weighted v o = some (weight o • v) := by
  cases o with
  | none => simp [weighted, weight]
  | some s =>
    have := h s rfl
    simp only [weighted, if_neg this.ne', weight, one_div]

theorem weight_nonneg {o : Option K} (h : ∀ s, o = some s → 0 < s) : 0 ≤ weight o := by
  cases o with
  | none => exact le_rfl
  | some s => have := h s rfl; simp only [weight]; positivity

theorem accumulate_from (l : List (RandVar ι V K)) (hp : Positive l) (a : ι → K) (b : ι → V) :
    l.foldl accStep (fun p => some (a p), fun p => some (b p)) =
      (fun p => some (a p + totalWeight l p), fun p => some (b p + weightedSum l p)) := by
  induction l generalizing a b with
  | nil => simp [totalWeight, weightedSum]
  | cons m l ih =>
    have hm := hp m (by simp)
    have : accStep (fun p => some (a p), fun p => some (b p)) m =
        (fun p => some (a p + weight (m.variance p)), fun p => some (b p + weight (m.variance p) • m.value p)) := by
      simp only [accStep, Prod.mk.injEq]
      constructor <;> funext p
      · rw [invVar_pos (hm p)]; rfl
      · rw [weighted_pos _ (hm p)]; rfl
    rw [List.foldl_cons, this, ih (fun m' hm' => hp m' (by simp [hm']))]
    simp [totalWeight, weightedSum, add_assoc]

theorem accumulate_eq (l : List (RandVar ι V K)) (hp : Positive l) :
    accumulate l = (fun p => some (totalWeight l p), fun p => some (weightedSum l p)) := by
  unfold accumulate
  have := accumulate_from l hp (fun _ => 0) (fun _ => 0)
  simpa using this

theorem totalWeight_nonneg (l : List (RandVar ι V K)) (hp : Positive l) (p : ι) : 0 ≤ totalWeight l p := by
  unfold totalWeight
  apply List.sum_nonneg
  intro x hx
  obtain ⟨m, hm, rfl⟩ := List.mem_map.mp hx
  exact weight_nonneg (hp m hm p)

theorem weight_le_total (l : List (RandVar ι V K)) (hp : Positive l) (p : ι) (m : RandVar ι V K) (hm : m ∈ l) :
    weight (m.variance p) ≤ totalWeight l p := by
  unfold totalWeight
  apply List.single_le_sum
  · intro x hx
    obtain ⟨m', hm', rfl⟩ := List.mem_map.mp hx
    exact weight_nonneg (hp m' hm' p)
  · exact List.mem_map.mpr ⟨m, hm, rfl⟩

theorem totalWeight_pos (l : List (RandVar ι V K)) (hp : Positive l) (p : ι) (hf : HasFinite l p) : 0 < totalWeight l p := by
  obtain ⟨m, hm, s, hs⟩ := hf
  refine lt_of_lt_of_le ?_ (weight_le_total l hp p m hm)
  have := hp m hm p s hs
  rw [hs]
  simp only [weight]
  positivity

theorem totalWeight_zero (l : List (RandVar ι V K)) (p : ι) (hf : ¬ HasFinite l p) : totalWeight l p = 0 := by
  unfold totalWeight
  apply List.sum_eq_zero
  intro x hx
  obtain ⟨m, hm, rfl⟩ := List.mem_map.mp hx
  cases h : m.variance p with
  | none => rfl
  | some s => exact absurd ⟨m, hm, s, h⟩ hf

/-! ## C19 -/

variable [Fintype ι]

/-- C19. The merged value is the weighted mean of the measurements with the inverse variances as weights, and the inverse
of the merged variance is the sum of the inverse variances. -/
theorem combine_weighted_mean (l : List (RandVar ι V K)) (hp : Positive l) (hf : ∀ p, HasFinite l p) (p : ι) :
    ∃ v s, (combine l).value p = some v ∧ (combine l).variance p = some s ∧ 0 < s ∧ 1 / s = totalWeight l p ∧
      totalWeight l p • v = weightedSum l p := by
  have hpos : ∀ p, 0 < totalWeight l p := fun p => totalWeight_pos l hp p (hf p)
  have hn : ∀ p, isNormal ((accumulate l).1 p) = true := by
    intro p
    rw [accumulate_eq l hp]
    simp [isNormal, (hpos p).ne']
  refine ⟨(totalWeight l p)⁻¹ • weightedSum l p, (totalWeight l p)⁻¹, ?_, ?_, inv_pos.mpr (hpos p), ?_, ?_⟩
  · unfold combine; simp only [if_pos hn]; rw [accumulate_eq l hp]
  · unfold combine; simp only [if_pos hn]; rw [accumulate_eq l hp]; rfl
  · rw [one_div, inv_inv]
  · rw [smul_smul, mul_inv_cancel₀ (hpos p).ne', one_smul]

/-- C19. If some component has no measurement with finite variance, the merged variance is infinite (in all
components): the quantity counts as not measured. -/
theorem combine_unmeasured (l : List (RandVar ι V K)) (hp : Positive l) (p : ι) (hf : ¬ HasFinite l p) (q : ι) :
    (combine l).variance q = none := by
  unfold combine
  simp only
  rw [if_neg]
  intro h
  have := h p
  rw [accumulate_eq l hp] at this
  simp [isNormal, totalWeight_zero l p hf] at this

/-- C19. The order of the measurements is irrelevant. -/
theorem combine_perm {l l' : List (RandVar ι V K)} (h : l.Perm l') : combine l = combine l' := by
  unfold combine
  rw [accumulate_perm h]

/-- C19. The merged value lies between the smallest and the largest measured value, of the measurements that have finite
variance. For complex values this holds for the component in every direction `f` (so the merged value is in the convex
hull). -/
theorem combine_between (l : List (RandVar ι V K)) (hp : Positive l) (hf : ∀ p, HasFinite l p) (p : ι) (f : V →ₗ[K] K)
    (lo hi : K) (hb : ∀ m ∈ l, (∃ s, m.variance p = some s) → lo ≤ f (m.value p) ∧ f (m.value p) ≤ hi) :
    ∃ v, (combine l).value p = some v ∧ lo ≤ f v ∧ f v ≤ hi := by
  obtain ⟨v, h1, h5⟩ : ∃ v, (combine l).value p = some v ∧ totalWeight l p • v = weightedSum l p := by
    obtain ⟨v, s, h1, _, _, _, h5⟩ := combine_weighted_mean l hp hf p
    exact ⟨v, h1, h5⟩
  have hpos := totalWeight_pos l hp p (hf p)
  have key : totalWeight l p * lo ≤ f (weightedSum l p) ∧ f (weightedSum l p) ≤ totalWeight l p * hi := by
    clear h1 h5 hpos hf
    induction l with
    | nil => simp [totalWeight, weightedSum]
    | cons m l ih =>
      have ih' := ih (fun m' hm' => hp m' (by simp [hm'])) (fun m' hm' => hb m' (by simp [hm']))
      have e1 : totalWeight (m :: l) p = weight (m.variance p) + totalWeight l p := by simp [totalWeight]
      have e2 : weightedSum (m :: l) p = weight (m.variance p) • m.value p + weightedSum l p := by simp [weightedSum]
      rw [e1, e2, map_add, map_smul, smul_eq_mul]
      have hw : 0 ≤ weight (m.variance p) := weight_nonneg (hp m (by simp) p)
      cases hv : m.variance p with
      | none => simp only [weight, zero_mul, zero_add]; exact ih'
      | some s =>
        rw [hv] at hw
        obtain ⟨b1, b2⟩ := hb m (by simp) ⟨s, hv⟩
        constructor
        · have := mul_le_mul_of_nonneg_left b1 hw
          rw [add_mul]; linarith [ih'.1]
        · have := mul_le_mul_of_nonneg_left b2 hw
          rw [add_mul]; linarith [ih'.2]
  refine ⟨v, h1, ?_, ?_⟩
  · rw [← h5, map_smul, smul_eq_mul] at key
    exact le_of_mul_le_mul_left key.1 hpos
  · rw [← h5, map_smul, smul_eq_mul] at key
    exact le_of_mul_le_mul_left key.2 hpos

/-- C19. The merged variance is not larger than that of any measurement. -/
theorem combine_variance_le (l : List (RandVar ι V K)) (hp : Positive l) (hf : ∀ p, HasFinite l p) (p : ι)
    (m : RandVar ι V K) (hm : m ∈ l) (s : K) (hs : m.variance p = some s) :
    ∃ t, (combine l).variance p = some t ∧ t ≤ s := by
  obtain ⟨v, t, _, h2, ht, h4, _⟩ := combine_weighted_mean l hp hf p
  refine ⟨t, h2, ?_⟩
  have hw := weight_le_total l hp p m hm
  have hs0 := hp m hm p s hs
  rw [hs, ← h4] at hw
  simp only [weight] at hw
  exact (one_div_le_one_div hs0 ht).mp hw

/-- C19. A measurement with infinite variance has no influence: it can be left out. -/
theorem combine_infinite_irrelevant (l₁ l₂ : List (RandVar ι V K)) (m : RandVar ι V K) (h : ∀ p, m.variance p = none) :
    combine (l₁ ++ m :: l₂) = combine (l₁ ++ l₂) := by
  have : accumulate (l₁ ++ m :: l₂) = accumulate (l₁ ++ l₂) := by
    unfold accumulate
    rw [List.foldl_append, List.foldl_append, List.foldl_cons]
    congr 1
    simp only [accStep, Prod.ext_iff]
    constructor <;> funext p
    · rw [h p]
      cases (List.foldl accStep (fun _ => some 0, fun _ => some 0) l₁).1 p <;> simp [invVar, addO]
    · rw [h p]
      cases (List.foldl accStep (fun _ => some 0, fun _ => some 0) l₁).2 p <;> simp [weighted, addO]
  unfold combine
  rw [this]

/-- C19. If only some components have infinite variance, the values of these components have no influence. -/
theorem combine_infinite_component (l₁ l₂ : List (RandVar ι V K)) (m m' : RandVar ι V K)
    (hv : m.variance = m'.variance) (h : ∀ p, m.variance p = none ∨ m.value p = m'.value p) :
    combine (l₁ ++ m :: l₂) = combine (l₁ ++ m' :: l₂) := by
  have : accumulate (l₁ ++ m :: l₂) = accumulate (l₁ ++ m' :: l₂) := by
    unfold accumulate
    rw [List.foldl_append, List.foldl_append, List.foldl_cons, List.foldl_cons]
    congr 1
    simp only [accStep, Prod.ext_iff]
    constructor <;> funext p
    · rw [hv]
    · rcases h p with h | h
      · rw [← hv, h]; rfl
      · rw [h, hv]
  unfold combine
  rw [this]

/-- C19. Merging commutes with a change of units. -/
theorem combine_scale (l : List (RandVar ι V K)) (hp : Positive l) (hf : ∀ p, HasFinite l p) (c : K) (hc : c ≠ 0) (p : ι) :
    (combine (l.map (scale c))).value p = ((combine l).value p).map (fun v => c • v) ∧
    (combine (l.map (scale c))).variance p = ((combine l).variance p).map (fun s => s * (c * c)) := by
  have hcc : 0 < c * c := mul_self_pos.mpr hc
  have hp' : Positive (l.map (scale c)) := by
    intro m hm q s hs
    obtain ⟨m', hm', rfl⟩ := List.mem_map.mp hm
    simp only [scale, Option.map_eq_some_iff] at hs
    obtain ⟨s', h1, rfl⟩ := hs
    exact mul_pos (hp m' hm' q s' h1) hcc
  have hf' : ∀ q, HasFinite (l.map (scale c)) q := by
    intro q
    obtain ⟨m, hm, s, hs⟩ := hf q
    exact ⟨scale c m, List.mem_map.mpr ⟨m, hm, rfl⟩, s * (c * c), by simp [scale, hs]⟩
  have hw : ∀ o : Option K, weight (o.map fun s => s * (c * c)) = (c * c)⁻¹ * weight o := by
    intro o
    cases o with
    | none => simp [weight]
    | some s => simp [weight, mul_inv]
  have hT : totalWeight (l.map (scale c)) p = (c * c)⁻¹ * totalWeight l p := by
    unfold totalWeight
    clear hp hf hp' hf'
    induction l with
    | nil => simp
    | cons m l ih =>
      simp only [List.map_cons, List.sum_cons, mul_add]
      rw [ih]
      congr 1
      exact hw _
  have hS : c • weightedSum (l.map (scale c)) p = weightedSum l p := by
    unfold weightedSum
    clear hp hf hp' hf' hT
    induction l with
    | nil => simp
    | cons m l ih =>
      simp only [List.map_cons, List.sum_cons, smul_add]
      rw [ih]
      congr 1
      simp only [scale, hw, smul_smul]
      congr 1
      field_simp
  obtain ⟨v, s, h1, h2, h3, h4, h5⟩ := combine_weighted_mean l hp hf p
  obtain ⟨v', s', h1', h2', h3', h4', h5'⟩ := combine_weighted_mean _ hp' hf' p
  have hpos := totalWeight_pos l hp p (hf p)
  rw [h1, h2, h1', h2', Option.map_some, Option.map_some, Option.some.injEq, Option.some.injEq]
  constructor
  · rw [hT] at h5'
    have : totalWeight l p • v' = totalWeight l p • (c • v) := by
      rw [smul_comm, h5, ← hS, ← h5', smul_smul, smul_smul]
      congr 1
      field_simp
    have h := congrArg (fun x => (totalWeight l p)⁻¹ • x) this
    simp only [smul_smul] at h
    rw [inv_mul_cancel₀ hpos.ne', one_smul, ← mul_assoc, inv_mul_cancel₀ hpos.ne', one_mul] at h
    exact h
  · rw [hT, ← h4] at h4'
    have := h3.ne'
    have := h3'.ne'
    field_simp at h4'
    rw [← h4']; ring

omit [IsStrictOrderedRing K] in
/-- C19. Merged powers and currents: real and imaginary parts are merged separately; the order is irrelevant. -/
theorem combineDecomposed_perm {l l' : List (Decomposed ι K)} (h : l.Perm l') : combineDecomposed l = combineDecomposed l' := by
  unfold combineDecomposed
  have h1 : combine (l.map (·.re)) = combine (l'.map (·.re)) := by
    unfold combine
    rw [show accumulate (l.map (·.re)) = accumulate (l'.map (·.re)) by
      unfold accumulate
      exact (h.map _).foldl_eq' (fun m _ n _ a => by
        simp only [accStep, Prod.mk.injEq]
        exact ⟨funext fun p => addO_right_comm _ _ _, funext fun p => addO_right_comm _ _ _⟩) _]
  have h2 : combine (l.map (·.im)) = combine (l'.map (·.im)) := by
    unfold combine
    rw [show accumulate (l.map (·.im)) = accumulate (l'.map (·.im)) by
      unfold accumulate
      exact (h.map _).foldl_eq' (fun m _ n _ a => by
        simp only [accStep, Prod.mk.injEq]
        exact ⟨funext fun p => addO_right_comm _ _ _, funext fun p => addO_right_comm _ _ _⟩) _]
  rw [h1, h2]

/-- C19. With a finite measurement of every component of the real and imaginary parts, these parts are merged each on its
own (and `combine_weighted_mean`, `combine_between`, `combine_variance_le` apply to each). Otherwise both get infinite
variance. -/
theorem combineDecomposed_parts (l : List (Decomposed ι K)) (hr : Positive (l.map (·.re))) (hi : Positive (l.map (·.im))) :
    ((∀ p, HasFinite (l.map (·.re)) p ∧ HasFinite (l.map (·.im)) p) →
      combineDecomposed l = (combine (l.map (·.re)), combine (l.map (·.im)))) ∧
    (∀ p, ¬ (HasFinite (l.map (·.re)) p ∧ HasFinite (l.map (·.im)) p) → ∀ q,
      (combineDecomposed l).1.variance q = none ∧ (combineDecomposed l).2.variance q = none) := by
  constructor
  · intro hf
    unfold combineDecomposed
    simp only
    rw [if_pos]
    constructor
    · intro p
      obtain ⟨v, s, _, h2, h3, _⟩ := combine_weighted_mean _ hr (fun p => (hf p).1) p
      rw [h2]; simp [isNormal, h3.ne']
    · intro p
      obtain ⟨v, s, _, h2, h3, _⟩ := combine_weighted_mean _ hi (fun p => (hf p).2) p
      rw [h2]; simp [isNormal, h3.ne']
  · intro p hf q
    unfold combineDecomposed
    simp only
    rw [if_neg]
    · exact ⟨rfl, rfl⟩
    · rintro ⟨h1, h2⟩
      rcases not_and_or.mp hf with h | h
      · have := h1 p
        rw [combine_unmeasured _ hr p h p] at this
        simp [isNormal] at this
      · have := h2 p
        rw [combine_unmeasured _ hi p h p] at this
        simp [isNormal] at this

omit [Fintype ι] in
/-- C19. Merged voltages do not depend on the order of the sensors. -/
theorem combineVoltage_perm (cabs : K → K → K) {l l' : List (Voltage ι K)} (h : l.Perm l') :
    combineVoltage cabs l = combineVoltage cabs l' := by
  unfold combineVoltage
  have : l.any (fun m => m.im.isNone) = l'.any (fun m => m.im.isNone) := by
    rw [Bool.eq_iff_iff, List.any_eq_true, List.any_eq_true]
    constructor <;> rintro ⟨x, h1, h2⟩
    · exact ⟨x, h.mem_iff.mp h1, h2⟩
    · exact ⟨x, h.mem_iff.mpr h1, h2⟩
  rw [this]
  rw [combine_perm (h.map fun m => (⟨fun _ => cabsOrReal cabs m, fun _ => m.variance⟩ : RandVar Unit (ι → K) K)),
    combine_perm (h.map fun m =>
      (⟨fun _ p => (m.re p, (m.im.getD fun _ => 0) p), fun _ => m.variance⟩ : RandVar Unit (ι → K × K) K))]

omit [Fintype ι] in
/-- C19, the part that holds for voltages. A voltage sensor with infinite variance has no influence if it has an angle, or
if another sensor has none. The full property has no such condition: see `infinite_voltage_sensor_drops_angle`. -/
theorem combineVoltage_infinite_irrelevant_partial (cabs : K → K → K) (l₁ l₂ : List (Voltage ι K)) (m : Voltage ι K)
    (h : m.variance = none) (ha : m.im.isSome ∨ ∃ m' ∈ l₁ ++ l₂, m'.im = none) :
    combineVoltage cabs (l₁ ++ m :: l₂) = combineVoltage cabs (l₁ ++ l₂) := by
  unfold combineVoltage
  have e : (l₁ ++ m :: l₂).any (fun m => m.im.isNone) = (l₁ ++ l₂).any (fun m => m.im.isNone) := by
    rcases ha with ha | ⟨m', h1, h2⟩
    · have : m.im.isNone = false := by cases hh : m.im <;> simp_all
      simp [this]
    · have t : (l₁ ++ l₂).any (fun m => m.im.isNone) = true := List.any_eq_true.mpr ⟨m', h1, by simp [h2]⟩
      rw [t, List.any_eq_true]
      refine ⟨m', ?_, by simp [h2]⟩
      rcases List.mem_append.mp h1 with h | h
      · exact List.mem_append_left _ h
      · exact List.mem_append_right _ (by simp [h])
  rw [e]
  simp only [List.map_append, List.map_cons]
  rw [combine_infinite_irrelevant _ _ _ (fun _ => h), combine_infinite_irrelevant _ _ _ (fun _ => h)]

end

/-- C19 does not hold in full: a voltage sensor with infinite variance and no angle removes the angle measured by the other
sensors at the node. -/
theorem infinite_voltage_sensor_drops_angle (cabs : ℚ → ℚ → ℚ) : ∃ (l : List (Voltage Unit ℚ)) (m : Voltage Unit ℚ),
    m.variance = none ∧ (∃ v, (combineVoltage cabs l).1 = .phasor v) ∧ ∃ v, (combineVoltage cabs (l ++ [m])).1 = .magnitude v :=
  ⟨[⟨fun _ => 1, some fun _ => 0, some 1⟩], ⟨fun _ => 1, none, none⟩, rfl, ⟨_, rfl⟩, ⟨_, rfl⟩⟩

/-- C19 does not hold in full: a current sensor with infinite variance and another type of angle makes the merge fail. -/
theorem infinite_current_sensor_conflicts : ∃ (l : List (Current Unit ℚ)) (m : Current Unit ℚ),
    (∀ p, m.measurement.re.variance p = none ∧ m.measurement.im.variance p = none) ∧ (combineCurrent l).isSome ∧
    combineCurrent (l ++ [m]) = none :=
  ⟨[⟨true, ⟨fun _ => 1, fun _ => some 1⟩, ⟨fun _ => 1, fun _ => some 1⟩⟩],
    ⟨false, ⟨fun _ => 1, fun _ => none⟩, ⟨fun _ => 1, fun _ => none⟩⟩, fun _ => ⟨rfl, rfl⟩, rfl, rfl⟩

/-- C19. Current sensors at one terminal are merged exactly if they have the same type of angle. -/
theorem combineCurrent_iff [Field K] [LinearOrder K] [Fintype ι] (l : List (Current ι K)) :
    (∃ r, combineCurrent l = some r) ↔ ∀ c ∈ l, ∀ c' ∈ l, c.globalAngle = c'.globalAngle := by
  unfold combineCurrent
  cases l with
  | nil => simp
  | cons a l =>
    simp only
    constructor
    · rintro ⟨r, h⟩
      split at h
      · cases h
      · rename_i hh
        rw [List.any_eq_true] at hh
        push Not at hh
        have key : ∀ c ∈ a :: l, c.globalAngle = a.globalAngle := fun c hc => by simpa using hh c hc
        intro c hc c' hc'
        rw [key c hc, key c' hc']
    · intro h
      rw [if_neg]
      · exact ⟨_, rfl⟩
      · rw [List.any_eq_true]
        rintro ⟨c, hc, hne⟩
        have := h c hc a (by simp)
        simp [this] at hne

/-! Non-vacuity: two measurements 10 ± 1 and 20 ± 2 of a real quantity, and one of infinite variance. -/

private def two : List (RandVar Unit ℚ ℚ) :=
  [⟨fun _ => 10, fun _ => some 1⟩, ⟨fun _ => 1000, fun _ => none⟩, ⟨fun _ => 20, fun _ => some 4⟩]

example : Positive two ∧ ∀ p, HasFinite two p := by
  constructor
  · intro m hm p s hs
    simp only [two, List.mem_cons, List.not_mem_nil, or_false] at hm
    rcases hm with rfl | rfl | rfl <;> simp at hs <;> subst hs <;> norm_num
  · intro p; exact ⟨⟨fun _ => 10, fun _ => some 1⟩, by simp [two], 1, rfl⟩

example : (combine two).value () = some 12 ∧ (combine two).variance () = some (4 / 5) := by
  constructor <;> norm_num [combine, two, accumulate, accStep, addO, invVar, weighted, isNormal]

end PGM.Measured
