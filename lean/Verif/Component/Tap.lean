import Verif.Component.Invariant
import Verif.Cache.Props
import Mathlib.Algebra.Order.Field.Basic
import Mathlib.Algebra.Order.Ring.Rat
import Mathlib.Tactic.FieldSimp
import Mathlib.Tactic.Linarith
import Mathlib.Tactic.Ring
import Mathlib.Tactic.NormNum

/-!
# Tap positions and tap-dependent impedances (properties C24 and C45)

Prefix of all paths: `P/` = `/repo/power_grid_model_c/power_grid_model/include/power_grid_model/`. The updates of transformers
are those of `Verif.Update.Component`.
-/

set_option linter.unusedSectionVars false

namespace PGM.Component

open PGM.Update PGM.Cache

/-! ## Construction -/

/-- The tap-related part of `TransformerInput` and `ThreeWindingTransformerInput`. -/
structure TapInput where
  tapPos : Int
  tapMin : Int
  tapMax : Int
  tapNom : Int

/-- `tap_nom_`, `P/component/transformer.hpp` line 63 and three_winding_transformer.hpp lines 63-64. -/
def initialNom (i : TapInput) : Int := if i.tapNom = naIntS then 0 else i.tapNom

/-- The tap position that the constructors store: `P/component/transformer.hpp` lines 76-90 and
three_winding_transformer.hpp lines 99-117. -/
def initialTap (i : TapInput) : Int :=
  tapLimit i.tapMin i.tapMax (if i.tapPos = naIntS then (if i.tapNom = naIntS then 0 else i.tapNom) else i.tapPos)

/-- `Transformer` constructor. -/
def mkTransformer (id : Int) (f t : Bool) (i : TapInput) : Transformer := ⟨⟨id, i.tapMin, i.tapMax⟩, f, t, initialTap i⟩
/-- `ThreeWindingTransformer` constructor. -/
def mkTransformer3 (id : Int) (a b c : Bool) (i : TapInput) : Transformer3 :=
  ⟨⟨id, i.tapMin, i.tapMax⟩, a, b, c, initialTap i⟩

/-! ## Specification of C24 -/

/-- A tap position lies between the two declared bounds, whichever of them is larger. -/
def InRange (bound1 bound2 pos : Int) : Prop := (bound1 ≤ pos ∧ pos ≤ bound2) ∨ (bound2 ≤ pos ∧ pos ≤ bound1)

/-- The tap positions of all (three-winding) transformers of a model are in their ranges. -/
def TapsInRange {K : Type} [Field K] [DecidableEq K] (comps : ∀ t, List (classOf K t).C) : Prop :=
  (∀ c : Transformer, c ∈ (comps .transformer : List Transformer) → InRange c.fixed.tapMin c.fixed.tapMax c.tapPos) ∧
  (∀ c : Transformer3, c ∈ (comps .threeWindingTransformer : List Transformer3) →
    InRange c.fixed.tapMin c.fixed.tapMax c.tapPos)

/-! ## C24 -/

theorem tapLimit_inRange (a b n : Int) : InRange a b (tapLimit a b n) := by
  unfold InRange tapLimit; omega

/-- The position is limited to the nearest position in the range. -/
theorem tapLimit_of_inRange (a b n : Int) (h : InRange a b n) : tapLimit a b n = n := by
  unfold InRange at h; unfold tapLimit; omega

theorem setTap_inRange (a b cur n : Int) (h : InRange a b cur) : InRange a b (setTap a b cur n).1 := by
  unfold setTap
  split
  · exact h
  · exact tapLimit_inRange a b n

/-- C24, construction. -/
theorem constructed_tap_inRange (i : TapInput) : InRange i.tapMin i.tapMax (initialTap i) := tapLimit_inRange _ _ _

/-- C24, construction: a declared position in the range is taken as it is, and without a position the nominal one is. -/
theorem constructed_tap (i : TapInput) :
    (i.tapPos ≠ naIntS → InRange i.tapMin i.tapMax i.tapPos → initialTap i = i.tapPos) ∧
    (i.tapPos = naIntS → InRange i.tapMin i.tapMax (initialNom i) → initialTap i = initialNom i) := by
  constructor
  · intro h hr
    simp only [initialTap, h, if_false]
    exact tapLimit_of_inRange _ _ _ hr
  · intro h hr
    simp only [initialTap, h, if_true]
    exact tapLimit_of_inRange _ _ _ hr

variable {K : Type} [Field K] [DecidableEq K]

/-- The invariant of one component. -/
def tapInv : ∀ t, (classOf K t).C → Prop
  | .transformer => fun (c : Transformer) => InRange c.fixed.tapMin c.fixed.tapMax c.tapPos
  | .threeWindingTransformer => fun (c : Transformer3) => InRange c.fixed.tapMin c.fixed.tapMax c.tapPos
  | .node | .line | .asymLine | .link | .genericBranch | .shunt | .source | .symGen | .asymGen
  | .symLoad | .asymLoad | .symPowerSensor | .asymPowerSensor | .symVoltageSensor | .asymVoltageSensor | .symCurrentSensor
  | .asymCurrentSensor | .fault | .tapRegulator | .voltageRegulator => fun _ => True

theorem tapInv_update (t : CompType) (c : (classOf K t).C) (u : (classOf K t).U) (h : tapInv t c) :
    tapInv t ((classOf K t).update c u).1 := by
  cases t with
  | transformer => exact setTap_inRange _ _ _ _ h
  | threeWindingTransformer => exact setTap_inRange _ _ _ _ h
  | _ => trivial

/-- C24. After every history of permanent updates, batch scenarios, restorations, updates by the tap optimisation and
calculations, the tap positions of all transformers are in their declared ranges. -/
theorem taps_stay_in_range {E : Env K} (comps : ∀ t, List (classOf K t).C) (index : Int → Option (CompType × Nat))
    (h0 : TapsInRange comps) (ops : List (Op K)) (s : State E × (CompType → List Nat))
    (h : run E (newModel E comps index, fun _ => []) ops = some s) : TapsInRange s.1.model.comps := by
  have := run_inv (I := tapInv) tapInv_update ops _ s (by
    intro t c hc
    cases t with
    | transformer => exact h0.1 c hc
    | threeWindingTransformer => exact h0.2 c hc
    | _ => trivial) h
  exact ⟨fun c hc => this .transformer c hc, fun c hc => this .threeWindingTransformer c hc⟩

theorem setTap_idem (a b cur n : Int) : (setTap a b (setTap a b cur n).1 n).1 = (setTap a b cur n).1 := by
  unfold setTap
  by_cases h : n = naIntS ∨ n = cur
  · simp [h]
  · simp only [h, if_false]
    split <;> rfl

theorem setSide_idem (cur : Bool) (n : Int) : (setSide (setSide cur n).1 n).1 = (setSide cur n).1 := by
  unfold setSide; split <;> rfl

/-- C24: applying an update of a transformer twice is the same as applying it once. -/
theorem transformer_update_idem (c : Transformer) (u : TransformerUpdate) :
    ((c.update u).1.update u).1 = (c.update u).1 := by
  simp only [Transformer.update, setTap_idem, setSide_idem]

/-- C24: the same for three-winding transformers. -/
theorem transformer3_update_idem (c : Transformer3) (u : Transformer3Update) :
    ((c.update u).1.update u).1 = (c.update u).1 := by
  simp only [Transformer3.update, setTap_idem, setSide_idem]

/-- C24: an update with a tap position moves the tap to it if it is in the range, and otherwise to the nearest bound. -/
theorem update_moves_tap (c : Transformer) (u : TransformerUpdate) (hc : InRange c.fixed.tapMin c.fixed.tapMax c.tapPos)
    (hu : u.tapPos ≠ naIntS) :
    (InRange c.fixed.tapMin c.fixed.tapMax u.tapPos → (c.update u).1.tapPos = u.tapPos) ∧
    (u.tapPos < min c.fixed.tapMin c.fixed.tapMax → (c.update u).1.tapPos = min c.fixed.tapMin c.fixed.tapMax) ∧
    (max c.fixed.tapMin c.fixed.tapMax < u.tapPos → (c.update u).1.tapPos = max c.fixed.tapMin c.fixed.tapMax) := by
  simp only [Transformer.update, setTap, hu, false_or]
  unfold InRange at *
  split
  · omega
  · unfold tapLimit
    omega

/-- A reversed range. -/
example : initialTap ⟨100, 5, -5, -128⟩ = 5 ∧ initialTap ⟨-128, 5, -5, 3⟩ = 3 := by decide
example : ((mkTransformer 7 true true ⟨0, 5, -5, -128⟩).update ⟨7, -128, -128, -20⟩).1.tapPos = -5 := by decide
/-- The hypothesis of `taps_stay_in_range` for constructed transformers. -/
example (i : TapInput) : TapsInRange (K := ℚ) (fun t => match t with
    | .transformer => ([mkTransformer 1 true true i] : List Transformer)
    | .threeWindingTransformer => ([mkTransformer3 2 true true true i] : List Transformer3)
    | .node | .line | .asymLine | .link | .genericBranch | .shunt | .source | .symGen | .asymGen
    | .symLoad | .asymLoad | .symPowerSensor | .asymPowerSensor | .symVoltageSensor | .asymVoltageSensor | .symCurrentSensor
    | .asymCurrentSensor | .fault | .tapRegulator | .voltageRegulator => []) := by
  constructor <;>
  · intro c hc
    have := List.mem_singleton.mp hc
    subst this
    exact constructed_tap_inRange i

end PGM.Component

namespace PGM.Component

/-! ## Tap-dependent impedances -/

section
variable {F : Type} [Field F] [LinearOrder F] [IsStrictOrderedRing F]

/-- `tap_adjust_impedance`, `P/component/transformer_utils.hpp` lines 33-47 (the integer tap positions are converted to
`double` by the callers). -/
def tapAdjust (pos tmin tmax nom xk xkMin xkMax : F) : F :=
  if pos ≤ max nom tmax ∧ pos ≥ min nom tmax then
    if tmax = nom then xk
    else xk + (pos - nom) * ((xkMax - xk) / (tmax - nom))
  else if tmin = nom then xk
  else xk + (pos - nom) * ((xkMin - xk) / (tmin - nom))

/-! ### Specification -/

/-- `x` lies between `a` and `b`, in either order. -/
def Between (a b x : F) : Prop := (a ≤ x ∧ x ≤ b) ∨ (b ≤ x ∧ x ≤ a)

/-- `y` is the value at `p` of the straight line through `(p0, y0)` and `(p1, y1)`. -/
def OnLine (p0 y0 p1 y1 p y : F) : Prop := y * (p1 - p0) = y0 * (p1 - p) + y1 * (p - p0)

/-! ### C45 -/

theorem between_iff (a b x : F) : Between a b x ↔ (x ≤ max a b ∧ x ≥ min a b) := by
  unfold Between
  rcases le_total a b with h | h
  · rw [max_eq_right h, min_eq_left h]
    constructor
    · rintro (⟨h1, h2⟩ | ⟨h1, h2⟩)
      · exact ⟨h2, h1⟩
      · exact ⟨by linarith, by linarith⟩
    · rintro ⟨h1, h2⟩; exact Or.inl ⟨h2, h1⟩
  · rw [max_eq_left h, min_eq_right h]
    constructor
    · rintro (⟨h1, h2⟩ | ⟨h1, h2⟩)
      · exact ⟨by linarith, by linarith⟩
      · exact ⟨h2, h1⟩
    · rintro ⟨h1, h2⟩; exact Or.inr ⟨h2, h1⟩

/-- C45: the nominal value at the nominal tap, for all ranges. -/
theorem value_at_nominal (tmin tmax nom xk xkMin xkMax : F) : tapAdjust nom tmin tmax nom xk xkMin xkMax = xk := by
  unfold tapAdjust
  simp

/-- C45: the value for the maximum tap at the maximum tap, for all ranges. -/
theorem value_at_max (tmin tmax nom xk xkMin xkMax : F) (h : tmax ≠ nom) :
    tapAdjust tmax tmin tmax nom xk xkMin xkMax = xkMax := by
  unfold tapAdjust
  have h' : tmax - nom ≠ 0 := sub_ne_zero.mpr h
  simp only [le_max_right, ge_iff_le, min_le_right, and_self, if_true, h, if_false]
  field_simp
  ring

/-- C45, for ranges that contain the nominal tap: the value for the minimum tap at the minimum tap. -/
theorem value_at_min_partial (tmin tmax nom xk xkMin xkMax : F) (h : tmin ≠ nom) (hn : Between tmin tmax nom) :
    tapAdjust tmin tmin tmax nom xk xkMin xkMax = xkMin := by
  unfold tapAdjust
  have h' : tmin - nom ≠ 0 := sub_ne_zero.mpr h
  have hnot : ¬ (tmin ≤ max nom tmax ∧ tmin ≥ min nom tmax) := by
    rw [← between_iff]
    rintro (⟨h1, h2⟩ | ⟨h1, h2⟩) <;> rcases hn with ⟨h3, h4⟩ | ⟨h3, h4⟩
    · exact h (le_antisymm h3 h1)
    · exact h (le_antisymm (by linarith) (by linarith))
    · exact h (le_antisymm (by linarith) (by linarith))
    · exact h (le_antisymm h2 h4)
  simp only [hnot, if_false, h]
  field_simp
  ring

/-- The property fails for ranges that do not contain the nominal tap: with taps from 1 to 5, nominal tap 0 (the default) and
values 2 at the minimum, 10 nominal and 20 at the maximum, the value at the minimum tap is 12. -/
theorem value_at_min_false :
    ∃ tmin tmax nom xk xkMin xkMax : ℚ, tmin ≠ nom ∧ tmin < tmax ∧
      tapAdjust tmin tmin tmax nom xk xkMin xkMax ≠ xkMin :=
  ⟨1, 5, 0, 10, 2, 20, by norm_num, by norm_num, by norm_num [tapAdjust]⟩

theorem onLine_between (p0 y0 p1 y1 p y : F) (h : p1 ≠ p0) (hp : Between p0 p1 p) (hy : OnLine p0 y0 p1 y1 p y) :
    Between y0 y1 y := by
  unfold OnLine at hy
  unfold Between at *
  rcases hp with ⟨h1, h2⟩ | ⟨h1, h2⟩
  · have hd : 0 < p1 - p0 := by
      rcases lt_or_gt_of_ne h with h3 | h3
      · linarith
      · linarith
    rcases le_total y0 y1 with h4 | h4
    · left
      constructor
      · by_contra hc
        push Not at hc
        nlinarith [mul_pos hd (sub_pos.mpr hc)]
      · by_contra hc
        push Not at hc
        nlinarith [mul_pos hd (sub_pos.mpr hc)]
    · right
      constructor
      · by_contra hc
        push Not at hc
        nlinarith [mul_pos hd (sub_pos.mpr hc)]
      · by_contra hc
        push Not at hc
        nlinarith [mul_pos hd (sub_pos.mpr hc)]
  · have hd : 0 < p0 - p1 := by
      rcases lt_or_gt_of_ne h with h3 | h3
      · linarith
      · linarith
    rcases le_total y0 y1 with h4 | h4
    · left
      constructor
      · by_contra hc
        push Not at hc
        nlinarith [mul_pos hd (sub_pos.mpr hc)]
      · by_contra hc
        push Not at hc
        nlinarith [mul_pos hd (sub_pos.mpr hc)]
    · right
      constructor
      · by_contra hc
        push Not at hc
        nlinarith [mul_pos hd (sub_pos.mpr hc)]
      · by_contra hc
        push Not at hc
        nlinarith [mul_pos hd (sub_pos.mpr hc)]

theorem interpolates (pos p1 nom xk x1 : F) (h : p1 ≠ nom) :
    OnLine nom xk p1 x1 pos (xk + (pos - nom) * ((x1 - xk) / (p1 - nom))) := by
  have h' : p1 - nom ≠ 0 := sub_ne_zero.mpr h
  unfold OnLine
  field_simp
  ring

/-- C45: between the nominal and the maximum tap the value is interpolated linearly and lies between the two given values. -/
theorem value_towards_max (pos tmin tmax nom xk xkMin xkMax : F) (h : tmax ≠ nom) (hp : Between nom tmax pos) :
    OnLine nom xk tmax xkMax pos (tapAdjust pos tmin tmax nom xk xkMin xkMax) ∧
    Between xk xkMax (tapAdjust pos tmin tmax nom xk xkMin xkMax) := by
  have hv : OnLine nom xk tmax xkMax pos (tapAdjust pos tmin tmax nom xk xkMin xkMax) := by
    unfold tapAdjust
    rw [if_pos ((between_iff _ _ _).mp hp), if_neg h]
    exact interpolates pos tmax nom xk xkMax h
  exact ⟨hv, onLine_between _ _ _ _ _ _ h hp hv⟩

/-- C45, for ranges that contain the nominal tap: between the nominal and the minimum tap likewise. -/
theorem value_towards_min_partial (pos tmin tmax nom xk xkMin xkMax : F) (h : tmin ≠ nom) (hn : Between tmin tmax nom)
    (hp : Between nom tmin pos) :
    OnLine nom xk tmin xkMin pos (tapAdjust pos tmin tmax nom xk xkMin xkMax) ∧
    Between xk xkMin (tapAdjust pos tmin tmax nom xk xkMin xkMax) := by
  have hv : OnLine nom xk tmin xkMin pos (tapAdjust pos tmin tmax nom xk xkMin xkMax) := by
    by_cases hpn : pos = nom
    · subst hpn
      rw [value_at_nominal]
      unfold OnLine; ring
    · unfold tapAdjust
      have hnot : ¬ (pos ≤ max nom tmax ∧ pos ≥ min nom tmax) := by
        rw [← between_iff]
        intro hq
        rcases hn with ⟨h3, h4⟩ | ⟨h3, h4⟩
        · rcases hp with ⟨h5, h6⟩ | ⟨h5, h6⟩
          · exact h (le_antisymm h3 (h5.trans h6))
          · rcases hq with ⟨h7, h8⟩ | ⟨h7, h8⟩
            · exact hpn (le_antisymm h6 h7)
            · exact hpn (le_antisymm h8 (h4.trans h7))
        · rcases hp with ⟨h5, h6⟩ | ⟨h5, h6⟩
          · rcases hq with ⟨h7, h8⟩ | ⟨h7, h8⟩
            · exact hpn (le_antisymm (h8.trans h3) h5)
            · exact hpn (le_antisymm h8 h5)
          · exact h (le_antisymm (h5.trans h6) h4)
      rw [if_neg hnot, if_neg h]
      exact interpolates pos tmin nom xk xkMin h
  exact ⟨hv, onLine_between _ _ _ _ _ _ h hp hv⟩

end

/-- Normal and reversed ranges. -/
example : tapAdjust (3 : ℚ) (-5) 5 0 10 2 20 = 16 ∧ tapAdjust (-3 : ℚ) (-5) 5 0 10 2 20 = 52/10 ∧
    tapAdjust (3 : ℚ) 5 (-5) 0 10 2 20 = 52/10 := by norm_num [tapAdjust]
example : Between (5 : ℚ) (-5) 0 ∧ Between (0 : ℚ) 5 3 := by norm_num [Between]

end PGM.Component
