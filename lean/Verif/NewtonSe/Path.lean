import Verif.NewtonSe.Examples

/-!
# C55: all iterations of a run

`run_path_partial` describes a whole run: where it starts, every step and when it ends.
-/

namespace PGM.NewtonSe

open PGM.YBus PGM.Lu PGM.PowerFlow PGM.StateEst Matrix
open PGM.NewtonPf (RM Polar phasor)

variable {s : Symm}

/-! ## Specification -/

/-- The buses whose voltage phasor is measured. -/
def PhasorAt (M : Measured s) (b : Nat) : Prop := ∃ u var, M.voltage b = some ⟨.phasor u, var⟩

/-- The measured angle of a bus relative to its phase shift. -/
noncomputable def angleBeyond (shift : Nat → ℝ) (M : Measured s) (b : Nat) (p : Fin s.phases) : ℝ :=
  match M.voltage b with
  | some ⟨.phasor u, _⟩ => Complex.arg (u p * Complex.exp (-(shift b : ℂ) * Complex.I))
  | _ => 0

open Classical in
/-- The mean of these; without measured angles those of a symmetric voltage. -/
noncomputable def commonAngle (n : Nat) (shift : Nat → ℝ) (M : Measured s) (p : Fin s.phases) : ℝ :=
  if HasAngle n M then
    (∑ b ∈ (Finset.range n).filter (PhasorAt M), angleBeyond shift M b p) / ((Finset.range n).filter (PhasorAt M)).card
  else Complex.arg (spread s 1 p)

/-- Where the estimation starts. -/
structure IsStart (n : Nat) (shift : Nat → ℝ) (M : Measured s) (x : Nat → Polar s) : Prop where
  phasor : ∀ b u var, M.voltage b = some ⟨.phasor u, var⟩ → ∀ p, phasors x b p = u p ∧ 0 ≤ (x b).v p
  magnitude : ∀ b m var, M.voltage b = some ⟨.magnitude m, var⟩ → (x b).v = m
  unmeasured : ∀ b, M.voltage b = none → ∀ p, (x b).v p = 1
  angle : ∀ b, ¬ PhasorAt M b → ∀ p, (x b).theta p = shift b + commonAngle n shift M p

/-- One iteration: the Gauss-Newton step, and the rotation to angle zero if no angle is measured. -/
def IsIteration (n slack : Nat) (M : Measured s) (l : List (Reading s)) (x x' : Nat → Polar s) : Prop :=
  ∃ (d : Nat → Polar s) (a : ℝ), IsGaussNewtonStep n l x d ∧ (HasAngle n M → a = 0) ∧
    (¬ HasAngle n M → ∀ p : Fin s.phases, p.val = 0 → (x' slack).theta p = 0) ∧
    ∀ b p, (x' b).theta p = (x b).theta p + (d b).theta p - a ∧ (x' b).v p = (x b).v p + (d b).v p

/-- The voltages differ by at most the tolerance. -/
def Close (n : Nat) (tol : ℝ) (x x' : Nat → Polar s) : Prop := ∀ b, b < n → ∀ p, ‖phasors x' b p - phasors x b p‖ ≤ tol

/-! ## The start -/

theorem relative_eq (shift : Nat → ℝ) (M : Measured s) (b : Nat) :
    (PhasorAt M b → relativeAngle shift b (M.voltage b) = some (angleBeyond shift M b)) ∧
    (¬ PhasorAt M b → relativeAngle shift b (M.voltage b) = none) := by
  unfold PhasorAt
  cases h : M.voltage b with
  | none => simp [relativeAngle]
  | some m =>
    obtain ⟨v, var⟩ := m
    cases v with
    | magnitude m => simp [relativeAngle]
    | phasor u =>
      refine ⟨fun _ => ?_, fun hne => absurd ⟨u, var, rfl⟩ hne⟩
      simp only [relativeAngle]
      congr 1
      funext p
      unfold angleBeyond
      simp only [h]

open Classical in
theorem relative_list (n : Nat) (shift : Nat → ℝ) (M : Measured s) :
    let l := (List.range n).filterMap fun b => relativeAngle shift b (M.voltage b)
    l.length = ((Finset.range n).filter (PhasorAt M)).card ∧
    ∀ p, (l.map fun a => a p).sum = ∑ b ∈ (Finset.range n).filter (PhasorAt M), angleBeyond shift M b p := by
  induction n with
  | zero => simp
  | succ n ih =>
    obtain ⟨h1, h2⟩ := ih
    simp only [List.range_succ, List.filterMap_append, Finset.range_add_one, Finset.filter_insert]
    by_cases hp : PhasorAt M n
    · simp only [List.filterMap_cons, (relative_eq shift M n).1 hp, List.filterMap_nil, if_pos hp, List.length_append, List.map_append, List.sum_append]
      rw [Finset.card_insert_of_notMem (by simp)]
      refine ⟨by rw [h1]; simp, fun p => ?_⟩
      rw [Finset.sum_insert (by simp), h2 p]
      simp [add_comm]
    · simp only [List.filterMap_cons, (relative_eq shift M n).2 hp, List.filterMap_nil, if_neg hp, List.append_nil]
      exact ⟨h1, h2⟩

theorem meanAngle_eq (T : Topo) (shift : Nat → ℝ) (M : Measured s) (p : Fin s.phases) : meanAngle T shift M p = commonAngle T.nBus shift M p := by
  classical
  obtain ⟨h1, h2⟩ := relative_list T.nBus shift M
  unfold meanAngle commonAngle
  have hpos : (((Finset.range T.nBus).filter (PhasorAt M)).card > 0) ↔ HasAngle T.nBus M := by
    rw [gt_iff_lt, Finset.card_pos]
    constructor
    · rintro ⟨b, hb⟩
      obtain ⟨hb, hp⟩ := Finset.mem_filter.mp hb
      exact ⟨b, Finset.mem_range.mp hb, hp⟩
    · rintro ⟨b, hb, hp⟩
      exact ⟨b, Finset.mem_filter.mpr ⟨Finset.mem_range.mpr hb, hp⟩⟩
  simp only [h1]
  by_cases ha : HasAngle T.nBus M
  · rw [if_pos (hpos.mpr ha), if_pos ha, h2 p]
  · rw [if_neg fun h => ha (hpos.mp h), if_neg ha]

theorem start_isStart (T : Topo) (shift : Nat → ℝ) (M : Measured s) : IsStart T.nBus shift M (start T shift M).x where
  phasor b u var h p := by
    simp only [start, phasors, h, startAngle, startMagnitude, magnitudeOf]
    refine ⟨?_, norm_nonneg _⟩
    rw [mul_comm Complex.I]
    exact Complex.norm_mul_exp_arg_mul_I (u p)
  magnitude b m var h := by simp only [start, h, startMagnitude, magnitudeOf]
  unmeasured b h p := by simp only [start, h, startMagnitude]
  angle b h p := by
    have : startAngle T shift M b (M.voltage b) = fun p => meanAngle T shift M p + shift b := by
      cases hv : M.voltage b with
      | none => rfl
      | some m =>
        obtain ⟨v, var⟩ := m
        cases v with
        | magnitude m => rfl
        | phasor u => exact absurd ⟨u, var, hv⟩ h
    simp only [start, this]
    rw [meanAngle_eq]
    ring

/-! ## The run -/

theorem loop_path {N : SeNet s} {M : Measured s} {use : Bool} {mem : Nat → Memory s} {tol : ℝ} {left : Nat} {st st' : State s}
    (hp : PhiOk M st.phi) (h : loop N M use mem tol left st = .ok st') :
    ∃ (k : Nat) (z : Nat → State s), 1 ≤ k ∧ k ≤ left ∧ z 0 = st ∧ z k = st' ∧
      ∀ i, i < k → PhiOk M (z i).phi ∧ ∃ j dev, step N M use (mem j) (z i) = .ok (z (i + 1), dev) ∧ (dev ≤ tol ↔ i + 1 = k) := by
  induction left generalizing st with
  | zero => exact absurd h (by simp [loop])
  | succ left ih =>
    unfold loop at h
    cases hs : step N M use (mem left) st with
    | error e => rw [hs] at h; exact absurd h (by simp)
    | ok r =>
      obtain ⟨st1, dev⟩ := r
      rw [hs] at h
      dsimp only at h
      split_ifs at h with hd
      · have hp1 : PhiOk M st1.phi := by
          unfold step at hs
          cases hz : solve N use (mem left).perms (prepare N M st (mem left).sys) with
          | error e => rw [hz] at hs; exact absurd hs (by simp)
          | ok z =>
            rw [hz] at hs
            dsimp only at hs
            injection hs with hs
            obtain ⟨rfl, _⟩ := Prod.mk.inj hs
            exact phiOk_new hp fun b => (z b).tau
        obtain ⟨k, z, h1, h2, h3, h4, h5⟩ := ih hp1 h
        refine ⟨k + 1, fun i => i.casesOn st z, by omega, by omega, rfl, h4, fun i hi => ?_⟩
        cases i with
        | zero =>
          refine ⟨hp, left, dev, ?_, ⟨fun hh => absurd hd (not_lt.mpr hh), fun hh => by omega⟩⟩
          show step N M use (mem left) st = .ok (z 0, dev)
          rw [h3]
          exact hs
        | succ i =>
          obtain ⟨g1, j, dev, g2, g3⟩ := h5 i (by omega)
          exact ⟨g1, j, dev, g2, g3.trans ⟨fun e => by omega, fun e => by omega⟩⟩
      · injection h with h
        subst h
        refine ⟨1, fun i => i.casesOn st fun _ => st1, le_refl _, by omega, rfl, rfl, fun i hi => ?_⟩
        obtain rfl : i = 0 := by omega
        exact ⟨hp, left, dev, hs, ⟨fun _ => rfl, fun _ => not_lt.mp hd⟩⟩

theorem step_close {N : SeNet s} {M : Measured s} {use : Bool} {mem : Memory s} {st st' : State s} {dev tol : ℝ} (htol : 0 ≤ tol)
    (h : step N M use mem st = .ok (st', dev)) : dev ≤ tol ↔ Close N.T.nBus tol st.x st'.x := by
  unfold step at h
  cases hz : solve N use mem.perms (prepare N M st mem.sys) with
  | error e => rw [hz] at h; exact absurd h (by simp)
  | ok z =>
    rw [hz] at h
    dsimp only at h
    injection h with h
    obtain ⟨rfl, rfl⟩ := Prod.mk.inj h
    exact deviation_le _ _ _ htol

/-- **C55, a whole run.** The estimation starts from the measured voltages, makes one to `maxIter` iterations, each of which is a Gauss-Newton step as long
as no voltage is zero, and returns the first state that differs from the one before by at most the tolerance. -/
theorem run_path_partial {N : SeNet s} (hN : N.Valid) {M : Measured s} (hM : Variances M)
    (hu : MeasuredUncoupled N.y.param (withoutHalfOpen N.T M)) {mem : Nat → Memory s}
    (hold : ∀ k, (mem k).sys.gain.length = N.S.colIndicesLu.length ∧ (mem k).perms.length = N.T.nBus)
    (hex : (∀ obs, Observability.check N.T N.radial N.S (flags N.T M) ≠ .returns obs true) ∨
      ∀ k st f, prefactorize (luPattern N.S) true ((prepare N M st (mem k).sys).gain.map Block.toBlk) (mem k).perms = .ok f → f.perturbed = false)
    {shift : Nat → ℝ} {tol : ℝ} (htol : 0 ≤ tol) {maxIter : Nat} {st' : State s} (h : run N M shift tol maxIter mem = .ok st') :
    ∃ (k : Nat) (x : Nat → Nat → Polar s), 1 ≤ k ∧ k ≤ maxIter ∧ IsStart N.T.nBus shift M (x 0) ∧ x k = st'.x ∧
      ∀ i, i < k → (Close N.T.nBus tol (x i) (x (i + 1)) ↔ i + 1 = k) ∧
        (NonZero N.T.nBus (x i) →
          IsIteration N.T.nBus N.slack M (readings N.T N.y.param N.slack (withoutHalfOpen N.T M)) (x i) (x (i + 1))) := by
  unfold run at h
  split at h
  · rename_i obs ill hcheck
    obtain ⟨k, z, h1, h2, h3, h4, h5⟩ := loop_path (start_phiOk N.T shift M) h
    refine ⟨k, fun i => (z i).x, h1, h2, ?_, congrArg State.x h4, fun i hi => ?_⟩
    · show IsStart N.T.nBus shift M (z 0).x
      rw [h3]
      exact start_isStart N.T shift M
    obtain ⟨hp, j, dev, hs, hd⟩ := h5 i hi
    refine ⟨(step_close htol hs).symm.trans hd, fun hx => ?_⟩
    have hE : Exact N (ill && obs) (mem j).perms (prepare N M (z i) (mem j).sys) := by
      cases hi : (ill && obs) with
      | false => exact Or.inl rfl
      | true =>
        rw [Bool.and_eq_true] at hi
        exact Or.inr ((hex.resolve_left fun hh => hh obs (hi.1 ▸ hcheck)) j (z i))
    obtain ⟨d, a, h1, h2, h3, h4, _, _⟩ := step_gaussNewton_partial hN hM hu (hold j).1 (hold j).2 hx hp hE hs
    exact ⟨d, a, h1, h2, h3, h4⟩
  · exact absurd h (by simp)

/-- The hypotheses hold for the run of the example. -/
example : ∃ (S : YBus.Structure) (k : Nat) (x : Nat → Nat → Polar .sym), 1 ≤ k ∧ k ≤ 20 ∧ IsStart 2 (fun _ => 0) (exM 1 1 0) (x 0) ∧
    (∀ b, b < 2 → x k b = flat b) ∧
    ∀ i, i < k → NonZero 2 (x i) →
      IsIteration 2 (exSeNet S).slack (exM 1 1 0) (readings exTopo2 (exSeNet S).y.param (exSeNet S).slack (withoutHalfOpen exTopo2 (exM 1 1 0))) (x i) (x (i + 1)) := by
  obtain ⟨S, mem, st', hS, hmem, hrun, hx⟩ := exRun (1 / 1000) (by norm_num) 19
  have ho := exObservable 1 1 0
  rw [hS] at ho
  injection ho with ho
  obtain ⟨k, x, h1, h2, h3, h4, h5⟩ := run_path_partial (exSeNet_valid hS) (exM_variances 1 1 0) (sym_uncoupled _ _) hmem
    (Or.inl fun obs h => by
      rw [show Observability.check (exSeNet S).T (exSeNet S).radial (exSeNet S).S (flags (exSeNet S).T (exM 1 1 0)) = .returns true false from ho] at h
      exact absurd h (by simp)) (by norm_num) hrun
  exact ⟨S, k, x, h1, h2, h3, fun b hb => by rw [h4]; exact hx b hb, fun i hi => (h5 i hi).2⟩

end PGM.NewtonSe
