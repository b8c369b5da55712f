import Verif.Sensor.Model
import Verif.Sensor.Propagation

/-!
# Lemmas for property C60
-/

namespace PGM.Sensor

open PGM.PowerFlow PGM.Output PGM.Topology

theorem latest_nil {α : Type} (i : Option α) : latest i [] = i := by simp [latest]

theorem latest_cons {α : Type} (i u : Option α) (l : List (Option α)) : latest i (u :: l) = latest (u.or i) l := by
  unfold latest
  cases u with
  | none => rfl
  | some x =>
    have e : List.filterMap id (some x :: l) = x :: List.filterMap id l := rfl
    rw [e, List.getLast?_cons]
    cases (List.filterMap id l).getLast? <;> rfl

section history

variable {S U : Type}

theorem fold_real (upd : S → U → S) (get : S → ℝ) (new : U → Option ℝ) (c : ℝ)
    (h : ∀ s u, get (upd s u) = updateReal (new u) (get s) c) (l : List U) :
    ∀ (s : S) (i : Option ℝ), get s = (i.map (c * ·)).getD 0 → get (l.foldl upd s) = ((latest i (l.map new)).map (c * ·)).getD 0 := by
  induction l with
  | nil => intro s i hs; simpa [latest_nil] using hs
  | cons u l ih =>
    intro s i hs
    rw [List.foldl_cons, List.map_cons, latest_cons]
    apply ih
    rw [h]
    cases new u <;> simp [updateReal, hs]

theorem fold_realO (upd : S → U → S) (get : S → Option ℝ) (new : U → Option ℝ) (c : ℝ)
    (h : ∀ s u, get (upd s u) = updateRealO (new u) (get s) c) (l : List U) :
    ∀ (s : S) (i : Option ℝ), get s = i.map (c * ·) → get (l.foldl upd s) = (latest i (l.map new)).map (c * ·) := by
  induction l with
  | nil => intro s i hs; simpa [latest_nil] using hs
  | cons u l ih =>
    intro s i hs
    rw [List.foldl_cons, List.map_cons, latest_cons]
    apply ih
    rw [h]
    cases new u <;> simp [updateRealO, hs]

theorem fold_dev (upd : S → U → S) (get : S → Option Dev) (new : U → Option Dev) (c : ℝ)
    (h : ∀ s u, get (upd s u) = updateDev (new u) (get s) c) (l : List U) :
    ∀ (s : S) (i : Option Dev), get s = i.map (·.scale c) → get (l.foldl upd s) = (latest i (l.map new)).map (·.scale c) := by
  induction l with
  | nil => intro s i hs; simpa [latest_nil] using hs
  | cons u l ih =>
    intro s i hs
    rw [List.foldl_cons, List.map_cons, latest_cons]
    apply ih
    rw [h]
    cases new u <;> simp [updateDev, hs]

end history

section power

variable {τ : Symm} (t : Terminal) (i : PowerInput τ) (l : List (PowerInput τ))

theorem power_p (j : Fin τ.phases) : (powerSensor t i l).p j =
    ((latest (i.p j) (l.map (·.p j))).map (convertDirection t * invBase τ * ·)).getD 0 :=
  fold_real (updatePower t) (·.p j) (·.p j) _ (fun _ _ => rfl) l _ _ (by simp only [mkPower, updateReal]; cases i.p j <;> rfl)

theorem power_q (j : Fin τ.phases) : (powerSensor t i l).q j =
    ((latest (i.q j) (l.map (·.q j))).map (convertDirection t * invBase τ * ·)).getD 0 :=
  fold_real (updatePower t) (·.q j) (·.q j) _ (fun _ _ => rfl) l _ _ (by simp only [mkPower, updateReal]; cases i.q j <;> rfl)

theorem power_sigma : (powerSensor t i l).powerSigma = (latest i.powerSigma (l.map (·.powerSigma))).map (·.scale (invBase τ)) :=
  fold_dev (updatePower t) (·.powerSigma) (·.powerSigma) _ (fun _ _ => rfl) l _ _ rfl

theorem power_pSigma (j : Fin τ.phases) : (powerSensor t i l).pSigma j =
    (latest (i.pSigma j) (l.map (·.pSigma j))).map (·.scale (invBase τ)) :=
  fold_dev (updatePower t) (·.pSigma j) (·.pSigma j) _ (fun _ _ => rfl) l _ _ rfl

theorem power_qSigma (j : Fin τ.phases) : (powerSensor t i l).qSigma j =
    (latest (i.qSigma j) (l.map (·.qSigma j))).map (·.scale (invBase τ)) :=
  fold_dev (updatePower t) (·.qSigma j) (·.qSigma j) _ (fun _ _ => rfl) l _ _ rfl

end power

section voltage

variable {τ : Symm} (uRated : ℝ) (i : VoltageValues τ) (l : List (VoltageValues τ))

theorem voltage_u (j : Fin τ.phases) : (voltageSensor uRated i l).u j =
    (latest (i.u j) (l.map (·.u j))).map (invNorm τ uRated * ·) :=
  fold_realO (updateVoltage uRated) (·.u j) (·.u j) _ (fun _ _ => rfl) l _ _ rfl

theorem voltage_angle (j : Fin τ.phases) : (voltageSensor uRated i l).angle j = latest (i.angle j) (l.map (·.angle j)) := by
  have := fold_realO (updateVoltage uRated) (·.angle j) (·.angle j) 1 (fun _ _ => rfl) l (mkVoltage uRated i) (i.angle j)
    (by simp [mkVoltage])
  simpa [voltageSensor] using this

theorem voltage_sigma : (voltageSensor uRated i l).sigma = (latest i.sigma (l.map (·.sigma))).map (·.scale (invNorm τ uRated)) :=
  fold_dev (updateVoltage uRated) (·.sigma) (·.sigma) _ (fun _ _ => rfl) l _ _ rfl

end voltage

section current

variable {τ : Symm} (uRated : ℝ) (v : CurrentValues τ) (l : List (CurrentValues τ))

theorem current_i (j : Fin τ.phases) : (currentSensor uRated v l).i j =
    (latest (v.i j) (l.map (·.i j))).map (1 / baseCurrent uRated * ·) :=
  fold_realO (updateCurrent uRated) (·.i j) (·.i j) _ (fun _ _ => rfl) l _ _ rfl

theorem current_angle (j : Fin τ.phases) : (currentSensor uRated v l).angle j = latest (v.angle j) (l.map (·.angle j)) := by
  have := fold_realO (updateCurrent uRated) (·.angle j) (·.angle j) 1 (fun _ _ => rfl) l (mkCurrent uRated v) (v.angle j)
    (by simp [mkCurrent])
  simpa [currentSensor] using this

theorem current_sigma : (currentSensor uRated v l).sigma = (latest v.sigma (l.map (·.sigma))).map (1 / baseCurrent uRated * ·) :=
  fold_realO (updateCurrent uRated) (·.sigma) (·.sigma) _ (fun _ _ => rfl) l _ _ rfl

theorem current_angleSigma : (currentSensor uRated v l).angleSigma = latest v.angleSigma (l.map (·.angleSigma)) := by
  have := fold_realO (updateCurrent uRated) (·.angleSigma) (·.angleSigma) 1 (fun _ _ => rfl) l (mkCurrent uRated v) v.angleSigma
    (by simp [mkCurrent])
  simpa [currentSensor] using this

end current

theorem allGiven_some {α : Type} {τ : Symm} (x : Fin τ.phases → Option α) (y : Fin τ.phases → α) (h : ∀ j, x j = some (y j)) :
    allGiven x = some y := by
  cases τ with
  | sym =>
    simp only [allGiven, h]
    congr 1
    funext j
    congr 1
    exact Subsingleton.elim (α := Fin 1) _ _
  | asym =>
    simp only [allGiven, h]
    congr 1
    funext j
    revert j
    show ∀ j : Fin 3, _
    intro j
    fin_cases j <;> rfl

theorem allGiven_none {α : Type} {τ : Symm} (x : Fin τ.phases → Option α) (j : Fin τ.phases) (h : x j = none) : allGiven x = none := by
  cases τ with
  | sym =>
    have : j = 0 := Subsingleton.elim (α := Fin 1) _ _
    subst this
    simp [allGiven, h]
  | asym =>
    revert j
    show ∀ j : Fin 3, _
    intro j h
    fin_cases j
    · have h : x 0 = none := h
      simp [allGiven, h]
    · have h : x 1 = none := h
      simp only [allGiven, h]
      cases x 0 <;> rfl
    · have h : x 2 = none := h
      simp only [allGiven, h]
      cases x 0 <;> cases x 1 <;> rfl

theorem direction_reference (t : Terminal) : convertDirection t = reference t := by cases t <;> rfl

theorem direction_sq (t : Terminal) : reference t * reference t = 1 := by cases t <;> simp [reference]

/-- Phases of a positive sequence. -/
theorem exp_lag (θ : ℝ) (p : Fin 3) : Complex.exp ((θ - lag p : ℝ) * Complex.I) = spread .asym (Complex.exp (Complex.I * θ)) p := by
  have h : Complex.exp ((θ - lag p : ℝ) * Complex.I) = Complex.exp (Complex.I * θ) * posSeq p := by
    fin_cases p
    · simp [lag, posSeq, mul_comm]
    · show Complex.exp ((θ - lag 1 : ℝ) * Complex.I) = Complex.exp (Complex.I * θ) * Complex.exp _
      rw [← Complex.exp_add]; congr 1; simp [lag]; ring
    · show Complex.exp ((θ - lag 2 : ℝ) * Complex.I) = Complex.exp (Complex.I * θ) * Complex.exp _
      rw [← Complex.exp_add]; congr 1; simp [lag]; ring
  rw [h, posSeq_eq]
  fin_cases p <;> simp [spread]

theorem exp_lead (θ : ℝ) (p : Fin 3) :
    Complex.exp ((θ + lag p : ℝ) * Complex.I) = (![1, a, a2] : Fin 3 → ℂ) p * Complex.exp (Complex.I * θ) := by
  have h : Complex.exp ((θ + lag p : ℝ) * Complex.I) = negSeq p * Complex.exp (Complex.I * θ) := by
    fin_cases p
    · simp [lag, negSeq, mul_comm]
    · show Complex.exp ((θ + lag 1 : ℝ) * Complex.I) = Complex.exp _ * Complex.exp (Complex.I * θ)
      rw [← Complex.exp_add]; congr 1; simp [lag]; ring
    · show Complex.exp ((θ + lag 2 : ℝ) * Complex.I) = Complex.exp _ * Complex.exp (Complex.I * θ)
      rw [← Complex.exp_add]; congr 1; simp [lag]; ring
  rw [h, negSeq_eq]

/-- The factor of each measured phasor in the used one. -/
noncomputable def factor (τ σ : Symm) (j : Fin σ.phases) (p : Fin τ.phases) : ℂ :=
  match τ, σ with
  | .sym, .sym => 1
  | .sym, .asym => spread .asym 1 j
  | .asym, .asym => if p = j then 1 else 0
  | .asym, .sym => (![1, a, a2] : Fin 3 → ℂ) p / 3

theorem usedCurrent_eq (τ σ : Symm) (x : Fin τ.phases × Bool → ℝ) (j : Fin σ.phases) :
    usedCurrent τ σ x j = ∑ p, factor τ σ j p * (x (p, false) * Complex.exp (Complex.I * x (p, true))) := by
  cases τ <;> cases σ
  · show _ = ∑ p : Fin 1, _
    simp [usedCurrent, factor, mul_comm Complex.I]; rfl
  · show _ = ∑ p : Fin 1, _
    have h : spread .asym (Complex.exp (Complex.I * x (0, true))) j = spread .asym 1 j * Complex.exp (Complex.I * x (0, true)) := by
      revert j; show ∀ j : Fin 3, _; intro j
      fin_cases j <;> simp [spread, mul_comm]
    have e : Complex.exp ((x (0, true) - lag j : ℝ) * Complex.I) = _ := (exp_lag (x (0, true)) j).trans h
    simp only [usedCurrent, factor, Finset.univ_unique, Finset.sum_singleton]
    rw [e]
    show (x (0, false) : ℂ) * _ = spread .asym 1 j * (x (0, false) * Complex.exp (Complex.I * x (0, true)))
    ring
  · show _ = ∑ p : Fin 3, _
    simp only [usedCurrent, exp_lead, factor, Fin.sum_univ_three]
    show _ = (![1, a, a2] : Fin 3 → ℂ) 0 / 3 * (x (0, false) * Complex.exp (Complex.I * x (0, true))) +
      (![1, a, a2] : Fin 3 → ℂ) 1 / 3 * (x (1, false) * Complex.exp (Complex.I * x (1, true))) +
      (![1, a, a2] : Fin 3 → ℂ) 2 / 3 * (x (2, false) * Complex.exp (Complex.I * x (2, true)))
    ring
  · simp only [usedCurrent, factor, ite_mul, one_mul, zero_mul, Finset.sum_ite_eq', Finset.mem_univ, if_true, mul_comm Complex.I]

theorem usedCurrent_re (τ σ : Symm) (j : Fin σ.phases) : (fun x => (usedCurrent τ σ x j).re) =
    polarSum (fun p => (factor τ σ j p).re) (fun p => (factor τ σ j p).im) := by
  funext x
  rw [usedCurrent_eq, Complex.re_sum, polarSum]
  refine Finset.sum_congr rfl fun p _ => ?_
  rw [mul_comm Complex.I]
  simp [Complex.exp_ofReal_mul_I_re, Complex.exp_ofReal_mul_I_im]
  ring

theorem usedCurrent_im (τ σ : Symm) (j : Fin σ.phases) : (fun x => (usedCurrent τ σ x j).im) =
    polarSum (fun p => (factor τ σ j p).im) (fun p => -(factor τ σ j p).re) := by
  funext x
  rw [usedCurrent_eq, Complex.im_sum, polarSum]
  refine Finset.sum_congr rfl fun p _ => ?_
  rw [mul_comm Complex.I]
  simp [Complex.exp_ofReal_mul_I_re, Complex.exp_ofReal_mul_I_im]
  ring

end PGM.Sensor
