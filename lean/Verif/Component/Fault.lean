import Verif.Component.Invariant
import Mathlib.Algebra.Field.Rat

/-!
# Faults: accepted type and phase combinations (property C31)

Prefix of all paths: `P/` = `/repo/power_grid_model_c/power_grid_model/include/power_grid_model/`. `faultSane` and
`Fault.update` are those of `Verif.Update.Component`.
-/

set_option linter.unusedSectionVars false

namespace PGM.Component

open PGM.Update PGM.Cache

variable {K : Type} [Field K] [DecidableEq K]

/-- `Fault` constructor, `P/component/fault.hpp` lines 39-48: `none` is the exception of `check_sanity`. -/
def mkFault (id : Int) (status : Int) (type phase object : Int) (r x : Option K) : Option (Fault K) :=
  let phase' := if phase = naIntS then -1 else phase
  if faultSane type phase' then
    some ⟨⟨id⟩, toBool status, type, phase', object, some (r.getD 0), some (x.getD 0)⟩
  else none

/-- `get_fault_type`, `P/component/fault.hpp` lines 161-170; `none`: `InvalidShortCircuitType`. -/
def faultType (c : Fault K) : Option Int := if c.faultType ∈ [0, 1, 2, 3] then some c.faultType else none

/-- `get_fault_phase`, lines 171-194. -/
def faultPhase (c : Fault K) : Option Int :=
  if c.faultPhase = -1 then
    if c.faultType = 0 then some 0
    else if c.faultType = 1 then some 1
    else if c.faultType = 2 ∨ c.faultType = 3 then some 6
    else none
  else some c.faultPhase

/-- What `calc_param` (lines 50-68) hands to the solver; `none`: an exception. -/
def faultParam (c : Fault K) : Option (Int × Int) :=
  match faultType c, faultPhase c with
  | some t, some p => some (t, p)
  | _, _ => none

/-! ## Specification

Numbers of the enumerations, `P/common/enum.hpp` lines 89-107: types `three_phase` 0, `single_phase_to_ground` 1, `two_phase`
2, `two_phase_to_ground` 3; phases `default_value` -1, `abc` 0, `a` 1, `b` 2, `c` 3, `ab` 4, `ac` 5, `bc` 6. -/

/-- The faulted phases (of 0, 1, 2) that a phase number means. -/
def phases : Int → Option (List Nat)
  | 0 => some [0, 1, 2]
  | 1 => some [0]
  | 2 => some [1]
  | 3 => some [2]
  | 4 => some [0, 1]
  | 5 => some [0, 2]
  | 6 => some [1, 2]
  | _ => none

/-- The number of phases that a fault of a type involves. -/
def phaseCount : Int → Option Nat
  | 0 => some 3
  | 1 => some 1
  | 2 => some 2
  | 3 => some 2
  | _ => none

/-- A phase is meaningful for a type if it names as many phases as the type involves. -/
def Meaningful (type phase : Int) : Prop :=
  ∃ n l, phaseCount type = some n ∧ phases phase = some l ∧ l.length = n

/-- The combinations that may be stored: a meaningful one, the default phase with any type, or a type that is still to be
given (NaN) with any phase. -/
def Acceptable (type phase : Int) : Prop :=
  Meaningful type phase ∨ (phase = -1 ∧ ((phaseCount type).isSome ∨ type = naIntS)) ∨
    (type = naIntS ∧ (phases phase).isSome)

/-! ## C31 -/

theorem faultSane_iff (type phase : Int) :
    faultSane type phase = true ↔ Acceptable type phase ∨
      (phase = naIntS ∧ ((phaseCount type).isSome ∨ type = naIntS)) := by
  have hphases : (phases phase).isSome ↔ phase ∈ [0, 1, 2, 3, 4, 5, 6] := by
    unfold phases; split <;> simp_all
  unfold faultSane Acceptable Meaningful
  by_cases h0 : type = 0
  · subst h0
    simp [phaseCount, naIntS]
    unfold phases
    split <;> simp_all <;> tauto
  · by_cases h1 : type = 1
    · subst h1
      simp [phaseCount, naIntS]
      unfold phases
      split <;> simp_all <;> tauto
    · by_cases h2 : type = 2 ∨ type = 3
      · have hc : phaseCount type = some 2 := by rcases h2 with rfl | rfl <;> rfl
        have hn : type ≠ naIntS := by rcases h2 with rfl | rfl <;> decide
        simp only [h0, h1, h2, if_false, if_true, hc, hn]
        simp [naIntS]
        unfold phases
        split <;> simp_all <;> tauto
      · have hc : phaseCount type = none := by
          unfold phaseCount; split <;> simp_all
        simp only [h0, h1, h2, if_false, hc]
        by_cases hn : type = naIntS
        · simp only [hn, if_true, decide_eq_true_eq]
          rw [hphases]
          simp
          tauto
        · simp [hn]

/-- C31, construction: a fault is accepted exactly for the acceptable combinations (an omitted phase is the default). -/
theorem fault_constructed_iff (id status type phase object : Int) (r x : Option K) :
    (mkFault id status type phase object r x).isSome ↔
      Acceptable type (if phase = naIntS then -1 else phase) := by
  have hne : (if phase = naIntS then -1 else phase) ≠ naIntS := by
    split
    · decide
    · assumption
  have := faultSane_iff type (if phase = naIntS then -1 else phase)
  unfold mkFault
  generalize (if phase = naIntS then -1 else phase) = ph at *
  simp only
  split
  · rename_i h
    simp only [Option.isSome_some, true_iff]
    rcases this.mp h with h | h
    · exact h
    · exact absurd h.1 hne
  · rename_i h
    simp only [Option.isSome_none, Bool.false_eq_true, false_iff]
    exact fun ha => h (this.mpr (Or.inl ha))

/-- The stored phase of a fault is never NaN. -/
def PhaseGiven (c : Fault K) : Prop := c.faultPhase ≠ naIntS

theorem mkFault_phaseGiven (id status type phase object : Int) (r x : Option K) (c : Fault K)
    (h : mkFault id status type phase object r x = some c) : PhaseGiven c := by
  have hne : (if phase = naIntS then -1 else phase) ≠ naIntS := by
    split
    · decide
    · assumption
  unfold mkFault at h
  generalize (if phase = naIntS then -1 else phase) = ph at *
  simp only at h
  split at h
  · cases h
    exact hne
  · cases h

theorem update_phaseGiven (c : Fault K) (u : FaultUpdate K) (h : PhaseGiven c) : PhaseGiven (c.update u).1 := by
  unfold PhaseGiven Fault.update at *
  simp only
  split
  · assumption
  · exact h

/-- C31, update: an update raises an error exactly if the resulting combination is not acceptable. -/
theorem fault_update_rejected_iff (c : Fault K) (u : FaultUpdate K) (hc : PhaseGiven c) :
    (c.update u).2.2 = true ↔ ¬ Acceptable (c.update u).1.faultType (c.update u).1.faultPhase := by
  have h1 := update_phaseGiven c u hc
  have h2 := faultSane_iff (c.update u).1.faultType (c.update u).1.faultPhase
  have h3 : (c.update u).2.2 = !faultSane (c.update u).1.faultType (c.update u).1.faultPhase := rfl
  rw [h3]
  unfold PhaseGiven at h1
  constructor
  · intro hf ha
    rw [h2.mpr (Or.inl ha)] at hf
    cases hf
  · intro hn
    cases hs : faultSane (c.update u).1.faultType (c.update u).1.faultPhase with
    | false => rfl
    | true =>
      rcases h2.mp hs with h | h
      · exact absurd h hn
      · exact absurd h.1 h1

/-- C31: what the solver gets from a fault with an acceptable combination is a meaningful combination; a default phase is
resolved to one fixed phase of the type (abc, a or bc); and the only other outcome is the error for a type that was never
given. -/
theorem fault_param_meaningful (c : Fault K) (h : Acceptable c.faultType c.faultPhase) :
    (∀ t p, faultParam c = some (t, p) → t = c.faultType ∧ Meaningful t p ∧
      (c.faultPhase ≠ -1 → p = c.faultPhase) ∧
      (c.faultPhase = -1 → some p = [some 0, some 1, some 6, some 6][t.toNat]?.join)) ∧
    (faultParam c = none ↔ c.faultType = naIntS) := by
  have hm1 : ∀ n l, phaseCount c.faultType = some n → phases c.faultPhase = some l →
      c.faultType ∈ [0, 1, 2, 3] ∧ c.faultPhase ≠ -1 ∧ c.faultType ≠ naIntS := by
    intro n l h1 h2
    refine ⟨?_, ?_, ?_⟩
    · unfold phaseCount at h1; split at h1 <;> simp_all
    · rintro h3; rw [h3] at h2; cases h2
    · rintro h3; rw [h3] at h1; cases h1
  rcases h with ⟨n, l, h1, h2, h3⟩ | ⟨h1, h2⟩ | ⟨h1, h2⟩
  · obtain ⟨a1, a2, a3⟩ := hm1 n l h1 h2
    have hp : faultParam c = some (c.faultType, c.faultPhase) := by
      unfold faultParam faultType faultPhase; rw [if_pos a1, if_neg a2]
    rw [hp]
    refine ⟨?_, by simp [a3]⟩
    rintro t p ht
    cases ht
    exact ⟨rfl, ⟨n, l, h1, h2, h3⟩, fun _ => rfl, fun h => absurd h a2⟩
  · rcases h2 with h2 | h2
    · have ht : c.faultType = 0 ∨ c.faultType = 1 ∨ c.faultType = 2 ∨ c.faultType = 3 := by
        unfold phaseCount at h2; split at h2 <;> simp_all
      rcases ht with ht | ht | ht | ht <;>
      · have hp : ∃ p, faultParam c = some (c.faultType, p) ∧ Meaningful c.faultType p ∧
            some p = [some 0, some 1, some 6, some 6][c.faultType.toNat]?.join := by
          unfold faultParam faultType faultPhase
          rw [ht, h1]
          exact ⟨_, rfl, ⟨_, _, rfl, rfl, rfl⟩, rfl⟩
        obtain ⟨p, hp1, hp2, hp3⟩ := hp
        refine ⟨?_, by rw [hp1, ht]; simp [naIntS]⟩
        intro t q hq
        rw [hp1] at hq
        cases hq
        exact ⟨rfl, hp2, fun h => absurd h1 h, fun _ => hp3⟩
    · have hp : faultParam c = none := by
        unfold faultParam faultType; rw [h2]; rfl
      rw [hp]
      exact ⟨by simp, by simp [h2]⟩
  · have hp : faultParam c = none := by
      unfold faultParam faultType; rw [h1]; rfl
    rw [hp]
    exact ⟨by simp, by simp [h1]⟩

/-- Faults stay acceptable along updates that raise no error. -/
theorem fault_history_acceptable (us : List (FaultUpdate K)) (c : Fault K) (hc : PhaseGiven c)
    (ha : Acceptable c.faultType c.faultPhase)
    (hr : ∀ k u, us[k]? = some u →
      (((us.take k).foldl (fun c u => (c.update u).1) c).update u).2.2 = false) :
    Acceptable (us.foldl (fun c u => (c.update u).1) c).faultType (us.foldl (fun c u => (c.update u).1) c).faultPhase := by
  induction us generalizing c with
  | nil => exact ha
  | cons u us ih =>
    have h0 := hr 0 u rfl
    simp only [List.take_zero, List.foldl_nil] at h0
    rw [List.foldl_cons]
    apply ih
    · exact update_phaseGiven c u hc
    · by_contra hn
      rw [(fault_update_rejected_iff c u hc).mpr hn] at h0
      cases h0
    · intro k u' hu
      exact hr (k + 1) u' hu

/-- A rejected update raises an error but is kept: the next calculation gets a meaningless combination, here a three-phase
fault on phase a. -/
theorem rejected_update_is_kept :
    ∃ (c : Fault ℚ) (u : FaultUpdate ℚ), mkFault 9 1 0 (-1) 1 none none = some c ∧ (c.update u).2.2 = true ∧
      faultParam (c.update u).1 = some (0, 1) ∧ ¬ Meaningful 0 1 := by
  refine ⟨_, ⟨9, -128, -128, 1, naIntID, none, none⟩, rfl, rfl, rfl, ?_⟩
  rintro ⟨n, l, h1, h2, h3⟩
  cases h1; cases h2; cases h3

example : ∃ c : Fault ℚ, mkFault 9 1 1 (-128) 1 none (some 3) = some c ∧ faultParam c = some (1, 1) ∧
    c.xF = some 3 ∧ c.rF = some 0 := ⟨_, rfl, rfl, rfl, rfl⟩
example : mkFault (K := ℚ) 9 1 1 6 1 none none = none := rfl
example : Acceptable 3 5 := Or.inl ⟨2, [0, 2], rfl, rfl, rfl⟩

end PGM.Component
