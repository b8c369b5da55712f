import Verif.Common.Sequence
import Verif.Update.Component

/-!
# Loads and generators: injected power (property C44)

Prefix of all paths: `P/` = `/repo/power_grid_model_c/power_grid_model/include/power_grid_model/`. `LoadGen` and its `update`
are those of `Verif.Update.Component`; all numbers are exact, `none` is NaN. Simplification: a complex value of which one part
is NaN counts as NaN.
-/

namespace PGM.Component

open PGM.Update

/-- `LoadGenType`, `P/common/enum.hpp`. -/
inductive LoadType | constPq | constY | constI
deriving DecidableEq

/-- `base_power<sym>`, `P/common/common.hpp` lines 93-97: per phase for three-phase values. -/
noncomputable def basePowerOf (n : Nat) : ℝ := if n = 1 then 1000000 else 1000000 / 3

/-- `LoadGen` constructor, `P/component/load_gen.hpp` lines 82-84 with `set_power`, lines 86-95, and `Appliance`,
`P/component/appliance.hpp` lines 30-34. -/
noncomputable def mkLoadGen (n : Nat) (id : Int) (generator : Bool) (status : Int) (p q : Fin n → Option ℝ) : LoadGen n ℝ :=
  let f : LoadGenFixed ℝ := ⟨id, if generator then 1 else -1, basePowerOf n⟩
  (LoadGen.update (⟨f, decide (status ≠ 0), fun _ => none, fun _ => none⟩ : LoadGen n ℝ) ⟨id, naIntS, p, q⟩).1

/-- One component of `s_specified_`. -/
def specified {n : Nat} (c : LoadGen n ℝ) (i : Fin n) : Option ℂ :=
  match c.ps i, c.qs i with
  | some p, some q => some ⟨p, q⟩
  | _, _ => none

/-- `sym_calc_param`, lines 124-131: the mean of the phases. -/
noncomputable def symParam1 (c : LoadGen 1 ℝ) : Option ℂ := specified c 0
noncomputable def symParam3 (c : LoadGen 3 ℝ) : Option ℂ :=
  match specified c 0, specified c 1, specified c 2 with
  | some x, some y, some z => some ((x + y + z) / 3)
  | _, _, _ => none

/-- `asym_calc_param`, lines 132-139: the same value in every phase, or the values of the phases. -/
noncomputable def asymParam1 (c : LoadGen 1 ℝ) : Fin 3 → Option ℂ := fun _ => specified c 0
noncomputable def asymParam3 (c : LoadGen 3 ℝ) : Fin 3 → Option ℂ := fun i => specified c i

/-- `calc_param`, lines 38-47 (`energized`: connected to a source and switched on), for one value. -/
def loadParam (connected status : Bool) (x : Option ℂ) : Option ℂ := if connected && status then x else some 0

/-- `calculate_load_gen_result`, `P/math_solver/common_solver_functions.hpp` lines 386-409: power and current of one phase
at voltage `u`. -/
noncomputable def loadResult (type : LoadType) (s u : ℂ) : ℂ × ℂ :=
  let s' := match type with
    | .constPq => s
    | .constY => s * ((‖u‖ * ‖u‖ : ℝ) : ℂ)
    | .constI => s * (‖u‖ : ℂ)
  (s', star (s' / u))

/-- `get_output`, `P/component/appliance.hpp` lines 70-76: active and reactive power of one phase. -/
noncomputable def loadOutput (direction base : ℝ) (s : ℂ) : ℝ × ℝ := (base * s.re * direction, base * s.im * direction)

/-! ## Specification -/

/-- The factor that a load type prescribes at a voltage magnitude. -/
def factor : LoadType → ℝ → ℝ
  | .constPq, _ => 1
  | .constI, v => v
  | .constY, v => v ^ 2

/-- The sign of the injection: generators inject, loads withdraw. -/
def signOf (generator : Bool) : ℝ := if generator then 1 else -1

/-! ## C44 -/

theorem mkLoadGen_status (n : Nat) (id : Int) (g : Bool) (st : Int) (p q : Fin n → Option ℝ) :
    (mkLoadGen n id g st p q).status = decide (st ≠ 0) := rfl

theorem mkLoadGen_specified (n : Nat) (id : Int) (g : Bool) (st : Int) (p q : Fin n → ℝ) (i : Fin n) :
    specified (mkLoadGen n id g st (fun i => some (p i)) (fun i => some (q i))) i =
      some ((signOf g / basePowerOf n : ℝ) * (⟨p i, q i⟩ : ℂ)) := by
  have : specified (mkLoadGen n id g st (fun i => some (p i)) (fun i => some (q i))) i =
      some ⟨signOf g / basePowerOf n * p i, signOf g / basePowerOf n * q i⟩ := rfl
  rw [this]
  congr 1
  apply Complex.ext <;> simp

theorem loadResult_eq (type : LoadType) (s u : ℂ) : (loadResult type s u).1 = s * (factor type ‖u‖ : ℂ) := by
  cases type <;> simp [loadResult, factor, sq]

theorem loadOutput_eq (g : Bool) (n : Nat) (z : ℂ) (k : ℝ) :
    loadOutput (signOf g) (basePowerOf n) ((signOf g / basePowerOf n * k : ℝ) * z) = (z.re * k, z.im * k) := by
  have hb : basePowerOf n ≠ 0 := by unfold basePowerOf; split <;> norm_num
  have hs : signOf g * signOf g = 1 := by cases g <;> norm_num [signOf]
  unfold loadOutput
  simp only [Complex.mul_re, Complex.mul_im, Complex.ofReal_re, Complex.ofReal_im, zero_mul, sub_zero, add_zero,
    Prod.mk.injEq]
  constructor
  · field_simp; linear_combination (k * z.re) * hs
  · field_simp; linear_combination (k * z.im) * hs

/-- C44, single-phase calculation: a balanced load or generator that is switched on reports its specified power times 1, |u|
or |u|², and injects it with the sign of its kind. -/
theorem load_power_sym (id : Int) (g : Bool) (st : Int) (hst : st ≠ 0) (p q : ℝ) (type : LoadType) (u : ℂ) :
    ∃ s, loadParam true (mkLoadGen 1 id g st (fun _ => some p) (fun _ => some q)).status
        (symParam1 (mkLoadGen 1 id g st (fun _ => some p) (fun _ => some q))) = some s ∧
      (loadResult type s u).1 = ((signOf g * factor type ‖u‖ / 1000000 : ℝ) : ℂ) * ⟨p, q⟩ ∧
      loadOutput (signOf g) (basePowerOf 1) (loadResult type s u).1 = (p * factor type ‖u‖, q * factor type ‖u‖) := by
  rw [mkLoadGen_status, decide_eq_true hst]
  refine ⟨_, by unfold loadParam symParam1; rw [mkLoadGen_specified]; rfl, ?_, ?_⟩
  · rw [loadResult_eq, show basePowerOf 1 = 1000000 from rfl]
    push_cast
    ring
  · rw [loadResult_eq, mul_right_comm, ← Complex.ofReal_mul, loadOutput_eq]

/-- C44, single-phase calculation of an unbalanced load or generator: it reports the sum of its phases. -/
theorem load_power_sym3 (id : Int) (g : Bool) (st : Int) (hst : st ≠ 0) (p q : Fin 3 → ℝ) (type : LoadType) (u : ℂ) :
    ∃ s, loadParam true (mkLoadGen 3 id g st (fun i => some (p i)) (fun i => some (q i))).status
        (symParam3 (mkLoadGen 3 id g st (fun i => some (p i)) (fun i => some (q i)))) = some s ∧
      loadOutput (signOf g) (basePowerOf 1) (loadResult type s u).1 =
        ((p 0 + p 1 + p 2) * factor type ‖u‖, (q 0 + q 1 + q 2) * factor type ‖u‖) := by
  rw [mkLoadGen_status, decide_eq_true hst]
  refine ⟨_, by unfold loadParam symParam3; rw [mkLoadGen_specified, mkLoadGen_specified, mkLoadGen_specified]; rfl, ?_⟩
  have e : ∀ x y z : ℂ, ((signOf g / basePowerOf 3 : ℝ) * x + (signOf g / basePowerOf 3 : ℝ) * y +
      (signOf g / basePowerOf 3 : ℝ) * z) / 3 = ((signOf g / basePowerOf 1 : ℝ) : ℂ) * (x + y + z) := by
    intro x y z
    rw [show basePowerOf 1 = 1000000 from rfl, show basePowerOf 3 = 1000000 / 3 from by norm_num [basePowerOf]]
    push_cast
    ring
  rw [loadResult_eq, e, mul_right_comm, ← Complex.ofReal_mul, loadOutput_eq]
  simp

/-- C44, three-phase calculation: a balanced load or generator reports a third of its power in each phase, times the factor
of that phase's voltage. -/
theorem load_power_asym (id : Int) (g : Bool) (st : Int) (hst : st ≠ 0) (p q : ℝ) (type : LoadType) (u : C3) (i : Fin 3) :
    ∃ s, loadParam true (mkLoadGen 1 id g st (fun _ => some p) (fun _ => some q)).status
        (asymParam1 (mkLoadGen 1 id g st (fun _ => some p) (fun _ => some q)) i) = some s ∧
      loadOutput (signOf g) (basePowerOf 3) (loadResult type s (u i)).1 =
        (p / 3 * factor type ‖u i‖, q / 3 * factor type ‖u i‖) := by
  rw [mkLoadGen_status, decide_eq_true hst]
  refine ⟨_, by unfold loadParam asymParam1; rw [mkLoadGen_specified]; rfl, ?_⟩
  have e : ((signOf g / basePowerOf 1 : ℝ) : ℂ) * ⟨p, q⟩ = ((signOf g / basePowerOf 3 : ℝ) : ℂ) * ⟨p / 3, q / 3⟩ := by
    have : (⟨p / 3, q / 3⟩ : ℂ) = ⟨p, q⟩ / 3 := by
      rw [show (3 : ℂ) = ((3 : ℝ) : ℂ) by norm_num]
      apply Complex.ext
      · rw [Complex.div_ofReal_re]
      · rw [Complex.div_ofReal_im]
    rw [this, show basePowerOf 1 = 1000000 from rfl, show basePowerOf 3 = 1000000 / 3 from by norm_num [basePowerOf]]
    push_cast
    ring
  rw [loadResult_eq, e, mul_right_comm, ← Complex.ofReal_mul, loadOutput_eq]

/-- C44, three-phase calculation of an unbalanced load or generator: each phase reports its own power. -/
theorem load_power_asym3 (id : Int) (g : Bool) (st : Int) (hst : st ≠ 0) (p q : Fin 3 → ℝ) (type : LoadType) (u : C3)
    (i : Fin 3) :
    ∃ s, loadParam true (mkLoadGen 3 id g st (fun i => some (p i)) (fun i => some (q i))).status
        (asymParam3 (mkLoadGen 3 id g st (fun i => some (p i)) (fun i => some (q i))) i) = some s ∧
      loadOutput (signOf g) (basePowerOf 3) (loadResult type s (u i)).1 =
        (p i * factor type ‖u i‖, q i * factor type ‖u i‖) := by
  rw [mkLoadGen_status, decide_eq_true hst]
  refine ⟨_, by unfold loadParam asymParam3; rw [mkLoadGen_specified]; rfl, ?_⟩
  rw [loadResult_eq, mul_right_comm, ← Complex.ofReal_mul, loadOutput_eq]

/-- C44: a load or generator that is switched off or that no source reaches injects nothing, even if its power is NaN. -/
theorem load_disconnected (connected status : Bool) (x : Option ℂ) (type : LoadType) (u : ℂ)
    (h : connected = false ∨ status = false) :
    ∃ s, loadParam connected status x = some s ∧ loadResult type s u = (0, 0) := by
  refine ⟨0, ?_, ?_⟩
  · unfold loadParam
    rcases h with h | h <;> subst h <;> simp
  · cases type <;> simp [loadResult]

/-- C44: the reported current is the one that carries the power at the voltage. -/
theorem load_current (type : LoadType) (s u : ℂ) (hu : u ≠ 0) :
    u * star (loadResult type s u).2 = (loadResult type s u).1 := by
  unfold loadResult
  simp only [star_star]
  field_simp

/-- C44: at balanced voltages the three-phase form of a balanced load equals the single-phase form: the same injected power
in every phase and balanced currents, the ones of the single-phase calculation. -/
theorem load_balanced (c : LoadGen 1 ℝ) (s : ℂ) (hc : specified c 0 = some s) (type : LoadType) (u : ℂ) (i : Fin 3) :
    symParam1 c = some s ∧ asymParam1 c i = some s ∧
    (loadResult type s ((u • posSeq) i)).1 = (loadResult type s u).1 ∧
    (loadResult type s ((u • posSeq) i)).2 = ((loadResult type s u).2 • posSeq) i := by
  have hn : ‖posSeq i‖ = 1 := by
    have hexp : ∀ x : ℝ, ‖Complex.exp ((x : ℂ) * Complex.I)‖ = 1 := Complex.norm_exp_ofReal_mul_I
    unfold posSeq
    fin_cases i
    · simp
    · have := hexp (-(2 * Real.pi / 3)); push_cast at this; exact this
    · have := hexp (-(4 * Real.pi / 3)); push_cast at this; exact this
  have hinv : star (1 / posSeq i) = posSeq i := by
    have h1 : posSeq i * star (posSeq i) = 1 := by
      have := Complex.mul_conj' (posSeq i)
      rw [hn] at this
      simpa using this
    have h2 : star (posSeq i) * posSeq i = 1 := by rw [mul_comm]; exact h1
    rw [one_div, star_inv₀]
    exact inv_eq_of_mul_eq_one_right h2
  have h1 : (loadResult type s ((u • posSeq) i)).1 = (loadResult type s u).1 := by
    rw [loadResult_eq, loadResult_eq, Pi.smul_apply, smul_eq_mul, norm_mul, hn, mul_one]
  refine ⟨hc, hc, h1, ?_⟩
  have h2 : ∀ v, (loadResult type s v).2 = star ((loadResult type s v).1 / v) := fun v => rfl
  rw [h2, h1, Pi.smul_apply, Pi.smul_apply, smul_eq_mul, smul_eq_mul, h2,
    show (loadResult type s u).1 / (u * posSeq i) = (loadResult type s u).1 / u * (1 / posSeq i) by
      rw [div_mul_div_comm, mul_one], StarMul.star_mul, hinv, mul_comm]

/-- Non-vacuity: a load of 3 MW at 0.5 per unit, constant current: 1.5 MW reported, -1.5 per unit injected. -/
example : (loadResult .constI (-3) (1 / 2)).1 = -3 / 2 ∧
    loadOutput (signOf false) (basePowerOf 1) (-3 / 2) = (1500000, 0) := by
  constructor
  · rw [loadResult_eq]; norm_num [factor]
  · norm_num [loadOutput, signOf, basePowerOf, Complex.div_re, Complex.div_im]

end PGM.Component
