import Verif.NewtonSe.Optimal
import Mathlib.Analysis.Calculus.Deriv.Pow
import Mathlib.Analysis.Calculus.Deriv.CompMul

/-!
# C55: iterations of the Newton-Raphson state estimation are Gauss-Newton steps

The specification is in `Spec.lean`. The theorems are partial for these reasons, each with a witness in `Witness.lean`:
* The sensors of a branch that is connected at one side only are not used (`withoutHalfOpen`).
* If a measured branch or shunt couples the phases, the equations are not those of the least squares problem (`MeasuredUncoupled`).
In addition voltages of zero and perturbed pivots are excluded.
-/

namespace PGM.NewtonSe

open PGM.YBus PGM.Lu PGM.PowerFlow PGM.StateEst Matrix
open PGM.NewtonPf (RM Polar phasor)

variable {s : Symm}

/-! ## Sensors of half open branches -/

theorem closed_measured (T : Topo) (M : Measured s) : MeasuredClosed T (withoutHalfOpen T M) := by
  intro b hb side h
  have hk := List.mem_zipIdx_iff_getElem?.mp hb
  have : ∃ f t, T.branches[b.2]? = some (some f, some t) := by
    by_contra hne
    rcases h with h | h
    · exact h (if_neg hne)
    · exact h (if_neg hne)
  obtain ⟨f, t, e⟩ := this
  rw [hk] at e
  injection e with e
  rw [e]
  simp

theorem closed_variances {T : Topo} {M : Measured s} (h : Variances M) : Variances (withoutHalfOpen T M) where
  voltage := h.voltage
  injection := h.injection
  shunt := h.shunt
  power side k m hm := by
    simp only [withoutHalfOpen] at hm
    split_ifs at hm
    exact h.power side k m hm
  current side k m hm := by
    simp only [withoutHalfOpen] at hm
    split_ifs at hm
    exact h.current side k m hm

theorem closed_same {T : Topo} {M : Measured s} (h : MeasuredClosed T M) (b : (Option Nat × Option Nat) × Nat) (hb : b ∈ T.branches.zipIdx)
    (side : Fin 2) : (withoutHalfOpen T M).branchPower side b.2 = M.branchPower side b.2 ∧
      (withoutHalfOpen T M).branchCurrent side b.2 = M.branchCurrent side b.2 := by
  have hk := List.mem_zipIdx_iff_getElem?.mp hb
  simp only [withoutHalfOpen]
  by_cases hc : ∃ f t, T.branches[b.2]? = some (some f, some t)
  · rw [if_pos hc, if_pos hc]
    exact ⟨rfl, rfl⟩
  · rw [if_neg hc, if_neg hc]
    have hn : ¬ (M.branchPower side b.2 ≠ none ∨ M.branchCurrent side b.2 ≠ none) := fun hne => by
      obtain ⟨e1, e2⟩ := h b hb side hne
      obtain ⟨f, e1⟩ := Option.ne_none_iff_exists'.mp e1
      obtain ⟨t, e2⟩ := Option.ne_none_iff_exists'.mp e2
      refine hc ⟨f, t, ?_⟩
      rw [hk, ← e1, ← e2]
    rw [not_or, not_not, not_not] at hn
    exact ⟨hn.1.symm, hn.2.symm⟩

/-- If all measured branches are connected, the restriction changes no reading. -/
theorem readings_closed {T : Topo} (P : Param (CM s)) (slack : Nat) {M : Measured s} (h : MeasuredClosed T M) :
    readings T P slack (withoutHalfOpen T M) = readings T P slack M := by
  unfold readings mainReadings
  congr 2
  refine List.flatMap_congr fun b hb => ?_
  unfold branchReadings powerReadings currentReadings
  rw [(closed_same h b hb 0).1, (closed_same h b hb 0).2, (closed_same h b hb 1).1, (closed_same h b hb 1).2]

theorem nodal_half {T : Topo} (P : Param (CM s)) (M : Measured s) (x : Nat → Polar s) (d : Nat → QV s) (r c : Nat) :
    nodal T (termParam P M x d r c) r c = nodal T (termParam P (withoutHalfOpen T M) x d r c) r c := by
  unfold nodal
  congr 2
  refine List.map_congr_left fun b hb => ?_
  have hk := List.mem_zipIdx_iff_getElem?.mp hb
  obtain ⟨⟨f, t⟩, k⟩ := b
  by_cases hc : ∃ f t, T.branches[k]? = some (some f, some t)
  · have e : ∀ ft, branchTerm' P M x d r c ft k = branchTerm' P (withoutHalfOpen T M) x d r c ft k := fun ft => by
      unfold branchTerm' powerTerm currentTerm
      simp only [withoutHalfOpen, if_pos hc]
    unfold branchTerm termParam
    simp only [e]
  · have hne : ¬ (f ≠ none ∧ t ≠ none) := by
      rintro ⟨h1, h2⟩
      obtain ⟨f', rfl⟩ := Option.ne_none_iff_exists'.mp h1
      obtain ⟨t', rfl⟩ := Option.ne_none_iff_exists'.mp h2
      exact hc ⟨f', t', hk⟩
    unfold branchTerm termParam
    simp only
    have h1 : ∀ a b : Nat, ¬ (f = some a ∧ t = some b) := fun a b h => hne (by rw [h.1, h.2]; simp)
    have h2 : ∀ a b : Nat, ¬ (t = some a ∧ f = some b) := fun a b h => hne (by rw [h.1, h.2]; simp)
    simp only [h1, h2, if_false]

theorem Prepared.half {N : SeNet s} (hN : N.Valid) {M : Measured s} {st : State s} {x : Sys s} (h : Prepared N M st x) :
    Prepared N (withoutHalfOpen N.T M) st x where
  len := h.len
  r := h.r
  qt := h.qt
  first r hr d := by
    rw [h.first r hr d]
    congr 2
    refine List.map_congr_left fun k hk => ?_
    rw [elems_nodal hN M st.x d hr hk, elems_nodal hN _ st.x d hr hk, nodal_half]
    rfl
  second := h.second

/-! ## One iteration -/

theorem solve_outside {N : SeNet s} (hN : N.Valid) {x : Sys s} (hx : x.gain.length = N.S.colIndicesLu.length) {use : Bool}
    {perms : List (BlockPerm ((s.phases + s.phases) + (s.phases + s.phases)))} (hp : perms.length = N.T.nBus) {z : Nat → Rhs s}
    (h : solve N use perms x = .ok z) (b : Nat) (hb : N.T.nBus ≤ b) : z b = ⟨0, 0⟩ := by
  have hv := structure_valid hN.topo hN.fill hN.structure_
  unfold solve at h
  rcases solve_total hv use _ _ perms (gain_holds hN hx) hp (rhsList N.T.nBus x) (by simp [rhsList]) with h1 | ⟨y, h1, h2⟩
  · rw [h1] at h
    exact absurd h (by simp)
  · rw [h1] at h
    injection h with h
    rw [← h]
    show ofVec (y[b]?.getD 0) = _
    rw [List.getElem?_eq_none (by rw [h2]; exact hb)]
    rfl

theorem phiOk_new {M : Measured s} {phi : Nat → QV s} (h : PhiOk M phi) (tau : Nat → QV s) : PhiOk M fun b => newPhi (M.injection b) (phi b) (tau b) := by
  intro b m hm p
  simp only [hm, newPhi, Sum.elim_inl, Sum.elim_inr]
  refine ⟨fun hne => ?_, fun hne => ?_⟩
  · rw [if_neg fun hall => hne (hall p)]
    exact (h b m hm p).1 hne
  · rw [if_neg fun hall => hne (hall p)]
    exact (h b m hm p).2 hne

/-- **C55, one iteration.** From a state without voltages of zero, an iteration changes the angles and the magnitudes by the Gauss-Newton step: the least
squares solution of all readings, linearised at the state, where readings with variance zero are met exactly; it is the only one. If no angle is
measured, all angles are then turned so that phase a of the slack bus has angle zero. -/
theorem step_gaussNewton_partial {N : SeNet s} (hN : N.Valid) {M : Measured s} (hM : Variances M)
    (hu : MeasuredUncoupled N.y.param (withoutHalfOpen N.T M)) {use : Bool} {mem : Memory s} (hold : mem.sys.gain.length = N.S.colIndicesLu.length)
    (hlen : mem.perms.length = N.T.nBus) {st st' : State s} (hx : NonZero N.T.nBus st.x) (hp : PhiOk M st.phi)
    (hex : Exact N use mem.perms (prepare N M st mem.sys)) {dev : ℝ} (h : step N M use mem st = .ok (st', dev)) :
    ∃ (d : Nat → Polar s) (a : ℝ),
      IsGaussNewtonStep N.T.nBus (readings N.T N.y.param N.slack (withoutHalfOpen N.T M)) st.x d ∧
      (HasAngle N.T.nBus M → a = 0) ∧
      (¬ HasAngle N.T.nBus M → ∀ p : Fin s.phases, p.val = 0 → (st'.x N.slack).theta p = 0) ∧
      (∀ b p, (st'.x b).theta p = (st.x b).theta p + (d b).theta p - a ∧ (st'.x b).v p = (st.x b).v p + (d b).v p) ∧
      (∀ b, N.T.nBus ≤ b → d b = ⟨0, 0⟩) ∧
      ∀ t, 0 ≤ t → (dev ≤ t ↔ ∀ b, b < N.T.nBus → ∀ p, ‖phasors st'.x b p - phasors st.x b p‖ ≤ t) := by
  unfold step at h
  cases hs : solve N use mem.perms (prepare N M st mem.sys) with
  | error e => rw [hs] at h; exact absurd h (by simp)
  | ok z =>
    rw [hs] at h
    dsimp only at h
    injection h with h
    obtain ⟨rfl, rfl⟩ := Prod.mk.inj h
    have hprep := prepared hN M st mem.sys hold
    obtain ⟨h1, h2⟩ := solve_spec hN hprep.len hlen hex hs
    refine ⟨fun b => (z b).polar, angleOffset N M st.x z,
      step_is_gaussNewton hN (closed_variances hM) hu (closed_measured N.T M) hx hp (hprep.half hN) h1 h2, ?_, ?_, ?_, ?_, ?_⟩
    · intro ha
      unfold angleOffset
      rw [if_pos ((hasAngle_iff _ M).mpr ha)]
    · intro ha p hp
      have e : ∀ a : Fin s.phases → ℝ, firstPhase a = a p := by
        intro a
        revert a p
        cases s with
        | sym => intro p hp a; exact congrArg a (Fin.ext hp.symm)
        | asym => intro p hp a; exact congrArg a (Fin.ext hp.symm)
      show (st.x N.slack).theta p + ((z N.slack).polar.theta p - angleOffset N M st.x z) = 0
      unfold angleOffset
      rw [if_neg fun hh => ha ((hasAngle_iff _ M).mp hh), e]
      simp
    · intro b p
      exact ⟨by show _ + (_ - _) = _; ring, rfl⟩
    · intro b hb
      show (z b).polar = _
      rw [solve_outside hN hprep.len hlen hs b hb]
      rfl
    · intro t ht
      have e : ∀ x : State s, x.u = phasors x.x := by
        intro x
        funext b p
        rfl
      rw [deviation_le _ _ _ ht, e, e]

/-- The phases of symmetric calculations are not coupled. -/
theorem sym_uncoupled (P : Param (CM .sym)) (M : Measured .sym) : MeasuredUncoupled P M where
  shunt _ _ _ p q h := by
    have : Subsingleton (Fin Symm.sym.phases) := inferInstanceAs (Subsingleton (Fin 1))
    exact absurd (Subsingleton.elim p q) h
  branch _ _ _ _ p q h := by
    have : Subsingleton (Fin Symm.sym.phases) := inferInstanceAs (Subsingleton (Fin 1))
    exact absurd (Subsingleton.elim p q) h

/-! ## The run -/

theorem start_phiOk (T : Topo) (shift : Nat → ℝ) (M : Measured s) : PhiOk M (start T shift M).phi := fun _ _ _ _ => ⟨fun _ => rfl, fun _ => rfl⟩

theorem loop_returns {N : SeNet s} {M : Measured s} {use : Bool} {mem : Nat → Memory s} {tol : ℝ} {left : Nat} {st st' : State s}
    (hp : PhiOk M st.phi) (h : loop N M use mem tol left st = .ok st') :
    ∃ k prev dev, PhiOk M prev.phi ∧ step N M use (mem k) prev = .ok (st', dev) ∧ dev ≤ tol := by
  induction left generalizing st with
  | zero => exact absurd h (by simp [loop])
  | succ left ih =>
    unfold loop at h
    cases hs : step N M use (mem left) st with
    | error e => rw [hs] at h; exact absurd h (by simp)
    | ok r =>
      obtain ⟨st1, dev⟩ := r
      rw [hs] at h
      dsimp only at h
      split_ifs at h with hd
      · refine ih ?_ h
        unfold step at hs
        cases hz : solve N use (mem left).perms (prepare N M st (mem left).sys) with
        | error e => rw [hz] at hs; exact absurd hs (by simp)
        | ok z =>
          rw [hz] at hs
          dsimp only at hs
          injection hs with hs
          obtain ⟨rfl, _⟩ := Prod.mk.inj hs
          exact phiOk_new hp fun b => (z b).tau
      · injection h with h
        subst h
        exact ⟨left, st, dev, hp, hs, not_lt.mp hd⟩

/-- **C55, when the estimation returns.** The returned state is one Gauss-Newton step away from a state whose voltages differ by at most the
tolerance. The step is determined: if the readings do not determine it, the estimation fails. -/
theorem run_returns_step_partial {N : SeNet s} (hN : N.Valid) {M : Measured s} (hM : Variances M)
    (hu : MeasuredUncoupled N.y.param (withoutHalfOpen N.T M)) {mem : Nat → Memory s}
    (hold : ∀ k, (mem k).sys.gain.length = N.S.colIndicesLu.length ∧ (mem k).perms.length = N.T.nBus)
    (hex : (∀ obs, Observability.check N.T N.radial N.S (flags N.T M) ≠ .returns obs true) ∨
      ∀ k st f, prefactorize (luPattern N.S) true ((prepare N M st (mem k).sys).gain.map Block.toBlk) (mem k).perms = .ok f → f.perturbed = false)
    {shift : Nat → ℝ} {tol : ℝ} (htol : 0 ≤ tol) {maxIter : Nat} {st' : State s} (h : run N M shift tol maxIter mem = .ok st') :
    ∃ prev : Nat → Polar s, (∀ b, b < N.T.nBus → ∀ p, ‖phasors st'.x b p - phasors prev b p‖ ≤ tol) ∧
      (NonZero N.T.nBus prev → ∃ (d : Nat → Polar s) (a : ℝ),
        IsGaussNewtonStep N.T.nBus (readings N.T N.y.param N.slack (withoutHalfOpen N.T M)) prev d ∧
        (HasAngle N.T.nBus M → a = 0) ∧
        (¬ HasAngle N.T.nBus M → ∀ p : Fin s.phases, p.val = 0 → (st'.x N.slack).theta p = 0) ∧
        ∀ b p, (st'.x b).theta p = (prev b).theta p + (d b).theta p - a ∧ (st'.x b).v p = (prev b).v p + (d b).v p) := by
  unfold run at h
  split at h
  · rename_i obs ill hcheck
    obtain ⟨k, prev, dev, hp, hs, hd⟩ := loop_returns (start_phiOk N.T shift M) h
    refine ⟨prev.x, ?_, fun hx => ?_⟩
    · unfold step at hs
      cases hz : solve N (ill && obs) (mem k).perms (prepare N M prev (mem k).sys) with
      | error e => rw [hz] at hs; exact absurd hs (by simp)
      | ok z =>
        rw [hz] at hs
        dsimp only at hs
        injection hs with hs
        obtain ⟨rfl, rfl⟩ := Prod.mk.inj hs
        exact (deviation_le _ _ _ htol).mp hd
    · have hE : Exact N (ill && obs) (mem k).perms (prepare N M prev (mem k).sys) := by
        cases hi : (ill && obs) with
        | false => exact Or.inl rfl
        | true =>
          rw [Bool.and_eq_true] at hi
          exact Or.inr ((hex.resolve_left fun hh => hh obs (hi.1 ▸ hcheck)) k prev)
      obtain ⟨d, a, h1, h2, h3, h4, _, _⟩ := step_gaussNewton_partial hN hM hu (hold k).1 (hold k).2 hx hp hE hs
      exact ⟨d, a, h1, h2, h3, h4⟩
  · exact absurd h (by simp)

/-! ## Exact readings and fixed points -/

theorem slope_zero (R : Reading s) (x : Nat → Polar s) : R.slope x (fun _ => ⟨fun _ => 0, fun _ => 0⟩) = 0 := by
  unfold Reading.slope
  have : (fun t => R.predict (move x (fun _ => ⟨fun _ => 0, fun _ => 0⟩) t)) = fun _ => R.predict x := by
    funext t
    congr 1
    funext b
    unfold move
    simp
  rw [this]
  exact deriv_const _ _

theorem readings_vars {N : SeNet s} (hN : N.Valid) {M : Measured s} (hM : Variances M) (hu : MeasuredUncoupled N.y.param M)
    (hc : MeasuredClosed N.T M) {x : Nat → Polar s} (hx : NonZero N.T.nBus x) :
    ∀ R ∈ readings N.T N.y.param N.slack M, R.Additive x ∧ 0 ≤ R.var := by
  intro R hR
  rcases List.mem_append.mp hR with hR | hR
  · exact ⟨(main_additive hN.topo hM hu hc hx hR).1, (main_additive hN.topo hM hu hc hx hR).2.le⟩
  · obtain ⟨b, m, hb, hm, hR⟩ := mem_injection hR
    refine ⟨injection_additive N.y.param hx hb hR, ?_⟩
    obtain ⟨p, rfl | rfl⟩ := mem_complex hR
    · exact (hM.injection b m hm p).1
    · exact (hM.injection b m hm p).2

/-- **C55, exact readings.** If a state predicts every reading exactly, then an iteration from it leaves all magnitudes unchanged and turns all angles by
the same amount, by none if an angle is measured. -/
theorem exact_readings_fixed_partial {N : SeNet s} (hN : N.Valid) {M : Measured s} (hM : Variances M)
    (hu : MeasuredUncoupled N.y.param (withoutHalfOpen N.T M)) {use : Bool} {mem : Memory s} (hold : mem.sys.gain.length = N.S.colIndicesLu.length)
    (hlen : mem.perms.length = N.T.nBus) {st st' : State s} (hx : NonZero N.T.nBus st.x) (hp : PhiOk M st.phi)
    (hex : Exact N use mem.perms (prepare N M st mem.sys)) {dev : ℝ} (h : step N M use mem st = .ok (st', dev))
    (hexact : ∀ R ∈ readings N.T N.y.param N.slack M, R.predict st.x = R.target) :
    ∃ a : ℝ, (HasAngle N.T.nBus M → a = 0) ∧
      ∀ b, b < N.T.nBus → ∀ p, (st'.x b).theta p = (st.x b).theta p - a ∧ (st'.x b).v p = (st.x b).v p := by
  obtain ⟨d, a, ⟨_, h1⟩, h2, _, h4, _, _⟩ := step_gaussNewton_partial hN hM hu hold hlen hx hp hex h
  refine ⟨a, h2, fun b hb p => ?_⟩
  have hvar := readings_vars hN (closed_variances (T := N.T) hM) hu (closed_measured N.T M) hx
  have hsub : ∀ R ∈ readings N.T N.y.param N.slack (withoutHalfOpen N.T M), R ∈ readings N.T N.y.param N.slack M := by
    intro R hR
    unfold readings mainReadings at hR ⊢
    simp only [List.mem_append] at hR ⊢
    rcases hR with ((hR | hR) | hR) | hR
    · exact Or.inl (Or.inl (Or.inl hR))
    · exact Or.inl (Or.inl (Or.inr hR))
    · refine Or.inl (Or.inr ?_)
      obtain ⟨b, hb, hR⟩ := List.mem_flatMap.mp hR
      refine List.mem_flatMap.mpr ⟨b, hb, ?_⟩
      by_cases hc : ∃ f t, N.T.branches[b.2]? = some (some f, some t)
      · have : branchReadings N.y.param (withoutHalfOpen N.T M) b = branchReadings N.y.param M b := by
          unfold branchReadings powerReadings currentReadings
          simp only [withoutHalfOpen, if_pos hc]
        rwa [this] at hR
      · have : branchReadings N.y.param (withoutHalfOpen N.T M) b = [] := by
          unfold branchReadings powerReadings currentReadings
          simp only [withoutHalfOpen, if_neg hc]
          rfl
        rw [this] at hR
        cases hR
    · exact Or.inr hR
  set l := readings N.T N.y.param N.slack (withoutHalfOpen N.T M) with hl
  have h0 : ∀ R ∈ l, R.misfit st.x (fun _ => ⟨fun _ => 0, fun _ => 0⟩) = 0 := fun R hR => by
    unfold Reading.misfit
    rw [slope_zero, hexact R (hsub R hR)]
    ring
  have hcost : linearCost l st.x (fun _ => ⟨fun _ => 0, fun _ => 0⟩) = 0 := by
    unfold linearCost
    apply List.sum_eq_zero
    intro q hq
    obtain ⟨R, hR, rfl⟩ := List.mem_map.mp hq
    rw [h0 R hR]
    simp
  have hnn : 0 ≤ linearCost l st.x d := by
    unfold linearCost
    apply List.sum_nonneg
    intro q hq
    obtain ⟨R, hR, rfl⟩ := List.mem_map.mp hq
    split_ifs
    · rfl
    · exact div_nonneg (sq_nonneg _) (hvar R hR).2
  obtain ⟨g1, g2⟩ := h1 _ fun R hR _ => h0 R hR
  have hd := g2 (by linarith) b hb
  obtain ⟨e1, e2⟩ := h4 b p
  rw [← hd] at e1 e2
  exact ⟨by rw [e1]; simp, by rw [e2]; simp⟩

/-- The direction scaled. -/
def scale (c : ℝ) (e : Nat → Polar s) (b : Nat) : Polar s := ⟨fun p => c * (e b).theta p, fun p => c * (e b).v p⟩

theorem slope_scale (R : Reading s) (x e : Nat → Polar s) (c : ℝ) : R.slope x (scale c e) = c * R.slope x e := by
  unfold Reading.slope
  have h : (fun t => R.predict (move x (scale c e) t)) = fun t => (fun t => R.predict (move x e t)) (c * t) := by
    funext t
    show R.predict _ = R.predict _
    congr 1
    funext b
    unfold move scale
    simp only [Polar.mk.injEq]
    refine ⟨funext fun p => by ring, funext fun p => by ring⟩
  rw [h]
  refine (deriv_comp_mul_left c (fun t => R.predict (move x e t)) 0).trans ?_
  rw [mul_zero]
  rfl

theorem fullCost_deriv {l : List (Reading s)} {x : Nat → Polar s} (hl : ∀ R ∈ l, R.Additive x) (e : Nat → Polar s) :
    HasDerivAt (fun t => fullCost l (move x e t)) (-2 * (l.map (Reading.pair x (fun _ => ⟨fun _ => 0, fun _ => 0⟩) e)).sum) 0 := by
  have h0 : move x e 0 = x := by
    funext b
    unfold move
    simp
  unfold fullCost
  induction l with
  | nil => simpa using hasDerivAt_const (0 : ℝ) (0 : ℝ)
  | cons R l ih =>
    simp only [List.map_cons, List.sum_cons]
    have h1 : HasDerivAt (fun t => if R.var = 0 then (0 : ℝ) else (R.target - R.predict (move x e t)) ^ 2 / R.var)
        (-2 * Reading.pair x (fun _ => ⟨fun _ => 0, fun _ => 0⟩) e R) 0 := by
      unfold Reading.pair Reading.misfit
      rw [slope_zero, sub_zero]
      by_cases hv : R.var = 0
      · simp only [hv, if_true, div_zero, mul_zero]
        exact hasDerivAt_const _ _
      · simp only [hv, if_false]
        have hd : HasDerivAt (fun t => R.predict (move x e t)) (R.slope x e) 0 := ((hl R (by simp)).1 e).hasDerivAt
        have := ((hd.const_sub R.target).pow 2).div_const R.var
        refine HasDerivAt.congr_deriv this ?_
        simp only [h0]
        push_cast
        ring
    have := h1.add (ih fun R h => hl R (by simp [h]))
    refine HasDerivAt.congr_deriv this ?_
    ring

theorem linear_quadratic {P E : ℝ} (h : ∀ c : ℝ, 0 ≤ -2 * (c * P) + c ^ 2 * E) : P = 0 := by
  by_contra hne
  have hE : 0 < |E| + 1 := by positivity
  have := h (P / (|E| + 1))
  have h1 : P / (|E| + 1) * P = P ^ 2 / (|E| + 1) := by ring
  have h2 : (P / (|E| + 1)) ^ 2 * E ≤ P ^ 2 / (|E| + 1) := by
    rw [div_pow, div_mul_eq_mul_div, div_le_div_iff₀ (by positivity) hE]
    have : E ≤ |E| + 1 := by linarith [le_abs_self E]
    have hp : 0 ≤ P ^ 2 * (|E| + 1) := by positivity
    nlinarith
  have h3 : 0 < P ^ 2 / (|E| + 1) := by positivity
  rw [h1] at this
  linarith

/-- **C55, fixed points.** If an iteration returns the state it started from and an angle is measured, then this state meets the readings with variance
zero, and the weighted sum of squares, not linearised, is stationary at it in all directions that keep these readings. -/
theorem fixed_point_stationary_partial {N : SeNet s} (hN : N.Valid) {M : Measured s} (hM : Variances M)
    (hu : MeasuredUncoupled N.y.param (withoutHalfOpen N.T M)) {use : Bool} {mem : Memory s} (hold : mem.sys.gain.length = N.S.colIndicesLu.length)
    (hlen : mem.perms.length = N.T.nBus) {st st' : State s} (hx : NonZero N.T.nBus st.x) (hp : PhiOk M st.phi)
    (hex : Exact N use mem.perms (prepare N M st mem.sys)) {dev : ℝ} (h : step N M use mem st = .ok (st', dev))
    (ha : HasAngle N.T.nBus M) (hfix : ∀ b, b < N.T.nBus → st'.x b = st.x b) :
    (∀ R ∈ readings N.T N.y.param N.slack (withoutHalfOpen N.T M), R.var = 0 → R.predict st.x = R.target) ∧
    ∀ e : Nat → Polar s, (∀ R ∈ readings N.T N.y.param N.slack (withoutHalfOpen N.T M), R.var = 0 → R.slope st.x e = 0) →
      HasDerivAt (fun t => fullCost (readings N.T N.y.param N.slack (withoutHalfOpen N.T M)) (move st.x e t)) 0 0 := by
  obtain ⟨d, a, ⟨hm, h1⟩, h2, _, h4, h5, _⟩ := step_gaussNewton_partial hN hM hu hold hlen hx hp hex h
  have hvar := readings_vars hN (closed_variances (T := N.T) hM) hu (closed_measured N.T M) hx
  set l := readings N.T N.y.param N.slack (withoutHalfOpen N.T M) with hl
  have hd : d = fun _ => ⟨fun _ => 0, fun _ => 0⟩ := by
    funext b
    by_cases hb : b < N.T.nBus
    · have e1 : (d b).theta = fun _ => 0 := by
        funext p
        have := (h4 b p).1
        rw [hfix b hb, h2 ha] at this
        linarith
      have e2 : (d b).v = fun _ => 0 := by
        funext p
        have := (h4 b p).2
        rw [hfix b hb] at this
        linarith
      exact (congrArg₂ Polar.mk e1 e2 : _)
    · rw [h5 b (not_lt.mp hb)]
      rfl
  subst hd
  refine ⟨fun R hR h0 => ?_, fun e he => ?_⟩
  · have := hm R hR h0
    unfold Reading.misfit at this
    rw [slope_zero] at this
    linarith
  · refine HasDerivAt.congr_deriv (fullCost_deriv (fun R hR => (hvar R hR).1) e) ?_
    have hP : (l.map (Reading.pair st.x (fun _ => ⟨fun _ => 0, fun _ => 0⟩) e)).sum = 0 := by
      refine linear_quadratic (E := (l.map (Reading.energy st.x e)).sum) fun c => ?_
      have hmeets : Meets l st.x (plus (fun _ => ⟨fun _ => 0, fun _ => 0⟩) (scale c e)) := fun R hR h0 => by
        rw [misfit_plus (hvar R hR).1, hm R hR h0, slope_scale, he R hR h0]
        ring
      have hle := (h1 _ hmeets).1
      rw [cost_plus (fun R hR => (hvar R hR).1)] at hle
      have e1 : (l.map (Reading.pair st.x (fun _ => ⟨fun _ => 0, fun _ => 0⟩) (scale c e))).sum =
          c * (l.map (Reading.pair st.x (fun _ => ⟨fun _ => 0, fun _ => 0⟩) e)).sum := by
        rw [← List.sum_map_mul_left]
        congr 1
        refine List.map_congr_left fun R _ => ?_
        unfold Reading.pair
        rw [slope_scale]
        ring
      have e2 : (l.map (Reading.energy st.x (scale c e))).sum = c ^ 2 * (l.map (Reading.energy st.x e)).sum := by
        rw [← List.sum_map_mul_left]
        congr 1
        refine List.map_congr_left fun R _ => ?_
        unfold Reading.energy
        rw [slope_scale]
        split_ifs
        · ring
        · ring
      rw [e1, e2] at hle
      linarith
    rw [hP]
    ring

end PGM.NewtonSe
