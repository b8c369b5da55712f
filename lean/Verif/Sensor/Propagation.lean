import Verif.Sensor.Spec
import Mathlib.Tactic.FieldSimp
import Mathlib.Tactic.LinearCombination

/-!
# Lemmas: propagation of errors through linear maps and from polar to rectangular coordinates
-/

namespace PGM.Sensor

open Finset

section
variable {ι : Type} [Fintype ι] [DecidableEq ι]

theorem partialAt_linear (c : ι → ℝ) (j : ι) (x : ι → ℝ) : partialAt j (fun x => ∑ k, c k * x k) x = c j := by
  unfold partialAt
  have h : (fun t => ∑ k, c k * Function.update x j t k) = fun t => c j * t + ∑ k ∈ univ.erase j, c k * x k := by
    funext t
    rw [← add_sum_erase univ _ (mem_univ j), Function.update_self]
    congr 1
    refine sum_congr rfl fun k hk => ?_
    rw [Function.update_of_ne (ne_of_mem_erase hk)]
  rw [h]
  have : HasDerivAt (fun t => c j * t + ∑ k ∈ univ.erase j, c k * x k) (c j * 1) (x j) :=
    ((hasDerivAt_id (x j)).const_mul (c j)).add_const _
  rw [this.deriv, mul_one]

theorem partialAt_const (j : ι) (d : ℝ) (x : ι → ℝ) : partialAt j (fun _ => d) x = 0 := by
  unfold partialAt
  exact deriv_const _ _

/-- A linear map: only first order terms. -/
theorem propagated_linear (c : ι → ℝ) (x v : ι → ℝ) : propagated (fun x => ∑ k, c k * x k) x v = ∑ j, v j * c j ^ 2 := by
  unfold propagated
  have h : ∀ k, partialAt k (fun x : ι → ℝ => ∑ k, c k * x k) = fun _ => c k := fun k => funext fun x => partialAt_linear c k x
  simp only [h, partialAt_const]
  simp
end

section
variable {n : Nat}

/-- Index of the magnitude (`false`) or the angle (`true`) of a phase. -/
abbrev Polar (n : Nat) := Fin n × Bool

/-- A part of a sum of rotated phasors in polar coordinates. -/
noncomputable def polarSum (A B : Fin n → ℝ) (x : Polar n → ℝ) : ℝ :=
  ∑ p, x (p, false) * (A p * Real.cos (x (p, true)) - B p * Real.sin (x (p, true)))

theorem polarSum_split (A B : Fin n → ℝ) (p : Fin n) (x : Polar n → ℝ) : polarSum A B x =
    x (p, false) * (A p * Real.cos (x (p, true)) - B p * Real.sin (x (p, true))) +
      ∑ q ∈ univ.erase p, x (q, false) * (A q * Real.cos (x (q, true)) - B q * Real.sin (x (q, true))) := by
  unfold polarSum
  rw [← add_sum_erase univ _ (mem_univ p)]

theorem rest_update (A B : Fin n → ℝ) (p : Fin n) (b : Bool) (x : Polar n → ℝ) (t : ℝ) :
    ∑ q ∈ univ.erase p, Function.update x (p, b) t (q, false) *
      (A q * Real.cos (Function.update x (p, b) t (q, true)) - B q * Real.sin (Function.update x (p, b) t (q, true))) =
    ∑ q ∈ univ.erase p, x (q, false) * (A q * Real.cos (x (q, true)) - B q * Real.sin (x (q, true))) := by
  refine sum_congr rfl fun q hq => ?_
  have hne := ne_of_mem_erase hq
  rw [Function.update_of_ne (by simp [hne]), Function.update_of_ne (by simp [hne])]

/-- The derivative of one term with respect to the angle. -/
theorem angle_deriv (a b m t : ℝ) :
    HasDerivAt (fun t => m * (a * Real.cos t - b * Real.sin t)) (-(m * (a * Real.sin t + b * Real.cos t))) t := by
  have := ((((Real.hasDerivAt_cos t).const_mul a).sub ((Real.hasDerivAt_sin t).const_mul b)).const_mul m)
  exact this.congr_deriv (by ring)

theorem partialAt_magnitude (A B : Fin n → ℝ) (p : Fin n) : partialAt (p, false) (polarSum A B) =
    fun x => A p * Real.cos (x (p, true)) - B p * Real.sin (x (p, true)) := by
  funext x
  unfold partialAt
  have h : (fun t => polarSum A B (Function.update x (p, false) t)) = fun t =>
      t * (A p * Real.cos (x (p, true)) - B p * Real.sin (x (p, true))) +
      ∑ q ∈ univ.erase p, x (q, false) * (A q * Real.cos (x (q, true)) - B q * Real.sin (x (q, true))) := by
    funext t
    rw [polarSum_split A B p, rest_update, Function.update_self, Function.update_of_ne (by simp)]
  rw [h]
  have := ((hasDerivAt_id (x (p, false))).mul_const (A p * Real.cos (x (p, true)) - B p * Real.sin (x (p, true)))).add_const
    (∑ q ∈ univ.erase p, x (q, false) * (A q * Real.cos (x (q, true)) - B q * Real.sin (x (q, true))))
  rw [one_mul] at this
  exact this.deriv

theorem partialAt_angle (A B : Fin n → ℝ) (p : Fin n) : partialAt (p, true) (polarSum A B) =
    fun x => -(x (p, false) * (A p * Real.sin (x (p, true)) + B p * Real.cos (x (p, true)))) := by
  funext x
  unfold partialAt
  have h : (fun t => polarSum A B (Function.update x (p, true) t)) = fun t =>
      x (p, false) * (A p * Real.cos t - B p * Real.sin t) +
      ∑ q ∈ univ.erase p, x (q, false) * (A q * Real.cos (x (q, true)) - B q * Real.sin (x (q, true))) := by
    funext t
    rw [polarSum_split A B p, rest_update, Function.update_self, Function.update_of_ne (by simp)]
  rw [h]
  exact ((angle_deriv (A p) (B p) (x (p, false)) (x (p, true))).add_const _).deriv

/-- A function of the values of phase `q` has no derivative in another phase. -/
theorem partialAt_other (g : ℝ → ℝ → ℝ) (p q : Fin n) (h : p ≠ q) (b : Bool) (x : Polar n → ℝ) :
    partialAt (p, b) (fun x => g (x (q, false)) (x (q, true))) x = 0 := by
  unfold partialAt
  have : (fun t => g (Function.update x (p, b) t (q, false)) (Function.update x (p, b) t (q, true))) =
      fun _ => g (x (q, false)) (x (q, true)) := by
    funext t
    rw [Function.update_of_ne (by simp [Ne.symm h]), Function.update_of_ne (by simp [Ne.symm h])]
  rw [this]
  exact deriv_const _ _

theorem second_mm (A B : Fin n → ℝ) (p q : Fin n) (x : Polar n → ℝ) :
    partialAt (p, false) (partialAt (q, false) (polarSum A B)) x = 0 := by
  rw [partialAt_magnitude]
  by_cases h : p = q
  · subst h
    unfold partialAt
    simp only [Function.update_of_ne (show ((p, true) : Polar n) ≠ (p, false) by simp)]
    exact deriv_const _ _
  · exact partialAt_other (fun _ t => A q * Real.cos t - B q * Real.sin t) p q h false x

theorem second_am (A B : Fin n → ℝ) (p q : Fin n) (x : Polar n → ℝ) :
    partialAt (p, true) (partialAt (q, false) (polarSum A B)) x =
      if p = q then -(A q * Real.sin (x (q, true)) + B q * Real.cos (x (q, true))) else 0 := by
  rw [partialAt_magnitude]
  by_cases h : p = q
  · subst h
    rw [if_pos rfl]
    unfold partialAt
    simp only [Function.update_self]
    have := angle_deriv (A p) (B p) 1 (x (p, true))
    simp only [one_mul] at this
    exact this.deriv
  · rw [if_neg h]
    exact partialAt_other (fun _ t => A q * Real.cos t - B q * Real.sin t) p q h true x

theorem second_ma (A B : Fin n → ℝ) (p q : Fin n) (x : Polar n → ℝ) :
    partialAt (p, false) (partialAt (q, true) (polarSum A B)) x =
      if p = q then -(A q * Real.sin (x (q, true)) + B q * Real.cos (x (q, true))) else 0 := by
  rw [partialAt_angle]
  by_cases h : p = q
  · subst h
    rw [if_pos rfl]
    unfold partialAt
    simp only [Function.update_self, Function.update_of_ne (show ((p, true) : Polar n) ≠ (p, false) by simp)]
    have := ((hasDerivAt_id (x (p, false))).mul_const (A p * Real.sin (x (p, true)) + B p * Real.cos (x (p, true)))).neg
    rw [one_mul] at this
    exact this.deriv
  · rw [if_neg h]
    exact partialAt_other (fun m t => -(m * (A q * Real.sin t + B q * Real.cos t))) p q h false x

theorem second_aa (A B : Fin n → ℝ) (p q : Fin n) (x : Polar n → ℝ) :
    partialAt (p, true) (partialAt (q, true) (polarSum A B)) x =
      if p = q then -(x (q, false) * (A q * Real.cos (x (q, true)) - B q * Real.sin (x (q, true)))) else 0 := by
  rw [partialAt_angle]
  by_cases h : p = q
  · subst h
    rw [if_pos rfl]
    unfold partialAt
    simp only [Function.update_self, Function.update_of_ne (show ((p, false) : Polar n) ≠ (p, true) by simp)]
    have := angle_deriv (-B p) (A p) (x (p, false)) (x (p, true))
    have e : (fun t => -(x (p, false) * (A p * Real.sin t + B p * Real.cos t))) =
        fun t => x (p, false) * (-B p * Real.cos t - A p * Real.sin t) := by funext t; ring
    rw [e, this.deriv]
    ring
  · rw [if_neg h]
    exact partialAt_other (fun m t => -(m * (A q * Real.sin t + B q * Real.cos t))) p q h true x

/-- The propagated variance of a sum of rotated phasors. -/
theorem propagated_polar (A B : Fin n → ℝ) (x v : Polar n → ℝ) : propagated (polarSum A B) x v = ∑ p,
    (v (p, false) * (A p * Real.cos (x (p, true)) - B p * Real.sin (x (p, true))) ^ 2 +
     v (p, true) * x (p, false) ^ 2 * (A p * Real.sin (x (p, true)) + B p * Real.cos (x (p, true))) ^ 2 +
     1 / 2 * v (p, true) ^ 2 * x (p, false) ^ 2 * (A p * Real.cos (x (p, true)) - B p * Real.sin (x (p, true))) ^ 2 +
     v (p, false) * v (p, true) * (A p * Real.sin (x (p, true)) + B p * Real.cos (x (p, true))) ^ 2) := by
  unfold propagated
  simp only [Fintype.sum_prod_type, Fintype.sum_bool]
  simp only [↓second_mm, ↓second_am, ↓second_ma, ↓second_aa]
  simp only [partialAt_magnitude, partialAt_angle, ite_pow, mul_ite, ite_mul, zero_pow (two_ne_zero), mul_zero, zero_mul, add_zero, zero_add]
  simp only [sum_add_distrib, sum_ite_eq, mem_univ, if_true]
  simp only [mul_sum, ← sum_add_distrib]
  refine sum_congr rfl fun p _ => ?_
  ring
end

end PGM.Sensor
