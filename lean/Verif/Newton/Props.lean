import Verif.Newton.Bound

/-!
# The Newton-Raphson power flow (C54), and Kirchhoff's law in its results (C17)
-/

namespace PGM.NewtonPf

open PGM.YBus PGM.Lu PGM.PowerFlow PGM.Component

variable {s : Symm}

/-! ## Runs -/

theorem iterations_append {tol : ℝ} {errTol : Dbl ℝ} {cacheRun : Bool} {inp : Newton.Input s ℝ} (its : List (Newton.Iter s ℝ))
    (it : Newton.Iter s ℝ) (a b c : Newton.State s ℝ) (d : Dbl ℝ) (h : Newton.iterations tol errTol cacheRun inp its a = some b)
    (h' : Newton.iterate tol errTol cacheRun inp it b = some (c, d)) :
    Newton.iterations tol errTol cacheRun inp (its ++ [it]) a = some c := by
  induction its generalizing a with
  | nil =>
    simp only [Newton.iterations, Option.some.injEq] at h
    subst h
    simp [Newton.iterations, h']
  | cons x its ih =>
    rw [List.cons_append]
    unfold Newton.iterations at h ⊢
    cases hx : Newton.iterate tol errTol cacheRun inp x a with
    | none => rw [hx] at h; simp at h
    | some y =>
      rw [hx] at h
      exact ih y.1 h

theorem foldlM_none {A B : Type} (f : A → B → Option A) (l : List B) (a : A) (h : l.foldlM f a = none) :
    ∃ l1 b l2 a', l = l1 ++ b :: l2 ∧ l1.foldlM f a = some a' ∧ f a' b = none := by
  induction l generalizing a with
  | nil => simp at h
  | cons x l ih =>
    rw [List.foldlM_cons] at h
    cases hx : f a x with
    | none => exact ⟨[], x, l, a, rfl, rfl, hx⟩
    | some a1 =>
      rw [hx] at h
      obtain ⟨l1, b, l2, a', e1, e2, e3⟩ := ih a1 h
      refine ⟨x :: l1, b, l2, a', by rw [e1]; rfl, ?_, e3⟩
      rw [List.foldlM_cons, hx]
      exact e2

theorem specified_none (inp : Newton.Input s ℝ) (gs : List Nat) (h : Newton.specifiedRegulating inp gs = none) :
    ∃ k ∈ gs, (inp.gen k).on = true ∧ (∃ r ∈ (inp.gen k).regs, r.on = true) ∧ (inp.gen k).constPq = false := by
  induction gs with
  | nil => simp [Newton.specifiedRegulating] at h
  | cons a gs ih =>
    unfold Newton.specifiedRegulating at h
    cases hr : Newton.specifiedRegulating inp gs with
    | none =>
      obtain ⟨k, h1, h2⟩ := ih hr
      exact ⟨k, List.mem_cons_of_mem _ h1, h2⟩
    | some rest =>
      rw [hr] at h
      simp only at h
      split_ifs at h with h1 h2
      rw [Bool.and_eq_true, List.any_eq_true] at h1
      exact ⟨a, List.mem_cons_self .., h1.1, h1.2, by simpa using h2⟩

/-- Why the preparation of an iteration can fail. -/
theorem prepare_none {tol : ℝ} {errTol : Dbl ℝ} {cacheRun : Bool} {inp : Newton.Input s ℝ} (hv : Newton.Valid inp) (its : List (Newton.Iter s ℝ))
    (st : Newton.State s ℝ) (hits : Newton.iterations tol errTol cacheRun inp its (Newton.start inp) = some st) (dq : Nat → RV s ℝ)
    (h : Newton.prepare tol inp dq st = none) :
    ∃ b, ∃ hb : b < inp.buses.length, ((Newton.start inp).ctl b).type = .pv ∧
      Newton.specifiedRegulating inp (inp.buses[b]'hb).loadGens = none := by
  unfold Newton.prepare at h
  simp only at h
  set st1 := if 0 < st.countdown then { st with countdown := st.countdown - 1 } else st with hst1
  have hctl : st1.ctl = st.ctl := by rw [hst1]; split_ifs <;> rfl
  split_ifs at h
  unfold Newton.enforce at h
  obtain ⟨l1, b, l2, a, e1, e2, e3⟩ := foldlM_none _ _ _ h
  have hmem : ∀ x ∈ List.range inp.buses.length, x < inp.buses.length := fun x hx => List.mem_range.mp hx
  have hb : b < inp.buses.length := hmem b (by rw [e1]; simp)
  have hnd : (l1 ++ b :: l2).Nodup := by rw [← e1]; exact List.nodup_range
  rw [List.nodup_append] at hnd
  have hb1 : b ∉ l1 := fun hx => hnd.2.2 b hx b (by simp) rfl
  have hl := Newton.enforce_list tol inp hv dq b hb l1 (fun x hx => hmem x (by rw [e1]; simp [hx])) hnd.1 st1 a e2
  have hab := (hl.2.1 (Or.inl hb1)).1
  unfold Newton.enforceBus at e3
  simp only at e3
  rw [List.getElem?_eq_getElem hb] at e3
  simp only [Option.map_some, Option.getD_some] at e3
  by_cases h1 : (a.ctl b).type ≠ .pv ∨ (a.ctl b).hasLimits = false
  · rw [if_pos h1] at e3
    simp at e3
  · rw [if_neg h1] at e3
    push Not at h1
    refine ⟨b, hb, ?_, ?_⟩
    · by_contra hne
      have := (Newton.never_switched_back hv its _ st hits b hb hne).1
      rw [← this, ← hctl, ← hab] at hne
      exact hne h1.1
    · cases hs : Newton.specifiedRegulating inp inp.buses[b].loadGens with
      | none => rfl
      | some spec =>
        rw [hs] at e3
        simp only at e3
        split_ifs at e3

/-- The controlled buses have their reference voltage. -/
def Controlled (N : PfNet s) (inp : PfInput s) (g : LoadInfo s) (st : Nr s) : Prop :=
  ∀ b, b < N.T.nBus → (st.lim.ctl b).type = .pv → ∀ p, (st.pol b).v p = |((Newton.start (limitsInput N inp g)).ctl b).uRef|

/-- What a step adds to a run. -/
def Stepped (N : PfNet s) (inp : PfInput s) (g : LoadInfo s) (st : Nr s) (u prev : Nat → CV s) : Prop :=
  ∃ x d : Nat → Polar s, prev = (fun b => phasor (x b)) ∧ u = (fun b => phasor (updatePolar (x b) (d b))) ∧
    (∀ b, st.pol b = updatePolar (x b) (d b)) ∧
    NewtonStep N inp g.type st.lim.clamped (fun b => (st.lim.ctl b).type = .pv) x d ∧
    ∀ d', NewtonStep N inp g.type st.lim.clamped (fun b => (st.lim.ctl b).type = .pv) x d' → ∀ b, b < N.T.nBus → d' b = d b

theorem step_run {tol : ℝ} {errTol : Dbl ℝ} {cacheRun : Bool} {N : PfNet s} (hN : N.Valid) (hc : FillClosed N.T) (inp : PfInput s)
    {g : LoadInfo s} (hg : OneRegulator g) {st st' : Nr s} {u u' : Nat → CV s} {dev : Dbl ℝ} (hI : Inv N st u) (hC : Controlled N inp g st)
    (hits : ∃ its, Newton.iterations tol errTol cacheRun (limitsInput N inp g) its (Newton.start (limitsInput N inp g)) = some st.lim)
    (h : nrStep tol errTol cacheRun N inp g st u = .ok (st', u', dev)) :
    Inv N st' u' ∧ Controlled N inp g st' ∧
    (∃ its, Newton.iterations tol errTol cacheRun (limitsInput N inp g) its (Newton.start (limitsInput N inp g)) = some st'.lim) ∧
    Stepped N inp g st' u' u := by
  obtain ⟨a1, a2, ⟨d, a3, a4, a5⟩, it, a6, a7, a8⟩ := nrStep_get tol errTol cacheRun hN hc inp hg st st' u u' dev hI h
  obtain ⟨its, hits⟩ := hits
  refine ⟨a1, fun b hb hp p => ?_, ⟨its ++ [it], iterations_append its it _ _ _ _ hits a8⟩, st.pol, d, hI.volt, ?_, a3, a4, a5⟩
  · have hb' : b < (limitsInput N inp g).buses.length := by rw [limits_buses]; exact hb
    have hpv : (st.lim.ctl b).type = .pv := by
      rcases Newton.iterate_bus (limits_valid N inp g hg) a8 b hb' with ⟨⟨e, _⟩, _⟩ | ⟨e, _⟩
      · rw [← e]; exact hp
      · exact e
    rw [a3]
    have := (a4 b hb p).2.2 hp
    simp only [updatePolar]
    rw [this, add_zero]
    exact hC b hb hpv p
  · rw [a1.volt]
    funext b
    rw [a3]

theorem phaseShift_norm (z : ℂ) : ‖phaseShift z‖ = 1 := by
  unfold phaseShift
  split_ifs with h
  · rw [norm_div, Complex.norm_real, norm_norm, div_self h.ne']
  · exact norm_one

theorem init_run {tol : ℝ} {errTol : Dbl ℝ} {cacheRun : Bool} {N : PfNet s} (hN : N.Valid) (hc : FillClosed N.T) (inp : PfInput s)
    (g : LoadInfo s) {self st : Nr s} {u : Nat → CV s} (hp : self.perms.length = N.T.nBus) (h : nrInit N inp g self = .ok (st, u)) :
    Inv N st u ∧ Controlled N inp g st ∧
    (∃ its, Newton.iterations tol errTol cacheRun (limitsInput N inp g) its (Newton.start (limitsInput N inp g)) = some st.lim) := by
  obtain ⟨a1, a2, a3, x, a4, _⟩ := nrInit_get hN hc inp g self st u hp h
  refine ⟨a1, fun b hb hpv p => ?_, ⟨[], by rw [a2]; rfl⟩⟩
  rw [a3, a4]
  rw [a2] at hpv
  unfold referenceVoltage
  rw [if_pos hpv, norm_mul, phaseShift_norm, mul_one, Complex.norm_real, Real.norm_eq_abs]

theorem run_get {tol : ℝ} {errTol : Dbl ℝ} {cacheRun : Bool} {N : PfNet s} (hN : N.Valid) (hc : FillClosed N.T) (inp : PfInput s)
    {g : LoadInfo s} (hg : OneRegulator g) {self : Nr s} (hp : self.perms.length = N.T.nBus) {m : Nat} {st0 st : Nr s} {u0 u prev : Nat → CV s}
    {dev : Dbl ℝ} (h0 : (nrSolver tol errTol cacheRun N inp g).init self = .ok (st0, u0))
    (h : Iterations (nrSolver tol errTol cacheRun N inp g) errTol m st0 u0 st u prev dev) :
    Inv N st u ∧ Controlled N inp g st ∧
    (∃ its, Newton.iterations tol errTol cacheRun (limitsInput N inp g) its (Newton.start (limitsInput N inp g)) = some st.lim) ∧
    Stepped N inp g st u prev := by
  have hi := init_run (tol := tol) (errTol := errTol) (cacheRun := cacheRun) hN hc inp g hp h0
  induction h with
  | one hs => exact step_run hN hc inp hg hi.1 hi.2.1 hi.2.2 hs
  | more _ _ hs ih =>
    obtain ⟨b1, b2, b3, _⟩ := ih h0 hi
    exact step_run hN hc inp hg b1 b2 b3 hs

/-! ## Properties -/

/-- **C54, the iterations.** In every iteration of a Newton-Raphson power flow, whatever the grid, the loads, the regulators and the history, the change
of the voltage angles and of the relative voltage magnitudes is a Newton step, and it is the only one. -/
theorem newton_iteration {tol : ℝ} {errTol : Dbl ℝ} {cacheRun : Bool} {N : PfNet s} (hN : N.Valid) (hc : FillClosed N.T) (inp : PfInput s)
    {g : LoadInfo s} (hg : OneRegulator g) {self : Nr s} (hp : self.perms.length = N.T.nBus) {m : Nat} {st0 st : Nr s} {u0 u prev : Nat → CV s}
    {dev : Dbl ℝ} (h0 : (nrSolver tol errTol cacheRun N inp g).init self = .ok (st0, u0))
    (h : Iterations (nrSolver tol errTol cacheRun N inp g) errTol m st0 u0 st u prev dev) :
    ∃ x d : Nat → Polar s, prev = (fun b => phasor (x b)) ∧ u = (fun b => phasor (along x d 1 b)) ∧
      NewtonStep N inp g.type st.lim.clamped (fun b => (st.lim.ctl b).type = .pv) x d ∧
      ∀ d', NewtonStep N inp g.type st.lim.clamped (fun b => (st.lim.ctl b).type = .pv) x d' → ∀ b, b < N.T.nBus → d' b = d b := by
  obtain ⟨_, _, _, x, d, e1, e2, _, e4, e5⟩ := run_get hN hc inp hg hp h0 h
  exact ⟨x, d, e1, by rw [e2]; funext b; rw [along_one], e4, e5⟩

/-- **C54, the start.** The iterations start from the solution of the linear equations in which all loads and generators are constant impedances (with the active
power only where a voltage is regulated), at voltage-controlled buses with the magnitude of the reference voltage. -/
theorem newton_start {N : PfNet s} (hN : N.Valid) (hc : FillClosed N.T) (inp : PfInput s) (g : LoadInfo s) (self st : Nr s) (u : Nat → CV s)
    (hp : self.perms.length = N.T.nBus) (h : nrInit N inp g self = .ok (st, u)) :
    ∃ z : Nat → CV s, StartEquations N inp (fun k => g.on k = true ∧ ∃ r ∈ g.regs k, r.on = true) z ∧
      ∀ b, b < N.T.nBus →
        (b ∈ N.sourceBus ∨ (∀ k, N.loadBus[k]? = some b → g.on k = true → ∀ r ∈ g.regs k, r.on = false) → u b = z b) ∧
        (b ∉ N.sourceBus → (∃ k, N.loadBus[k]? = some b ∧ g.on k = true ∧ ∃ r ∈ g.regs k, r.on = true) →
          ∃ k r, N.loadBus[k]? = some b ∧ g.on k = true ∧ r ∈ g.regs k ∧ r.on = true ∧ ∀ p, ∃ e : ℂ, ‖e‖ = 1 ∧ u b p = (r.uRef : ℂ) * e ∧
            (‖z b p‖ : ℂ) * e = z b p) := by
  obtain ⟨_, _, _, x, a4, a5⟩ := nrInit_get hN hc inp g self st u hp h
  refine ⟨fun b => rect (x b), fun b hb z hz => ?_, fun b hb => ?_⟩
  · have e : startPower inp g = z := by
      funext k p
      unfold startPower
      have hr : isRegulated g k = true ↔ (g.on k = true ∧ ∃ r ∈ g.regs k, r.on = true) := by
        unfold isRegulated
        rw [List.any_eq_true]
        constructor
        · rintro ⟨r, h1, h2⟩
          rw [Bool.and_eq_true] at h2
          exact ⟨h2.2, r, h1, h2.1⟩
        · rintro ⟨h1, r, h2, h3⟩
          exact ⟨r, h2, by rw [h1, h3]; rfl⟩
      by_cases hk : isRegulated g k = true
      · rw [if_pos hk, (hz k p).1 (hr.mp hk)]
      · rw [if_neg hk, (hz k p).2 (fun h => hk (hr.mpr h))]
    rw [← e]
    exact a5 b hb
  · have hbus := limits_bus N inp g hb
    obtain ⟨i1, i2, i3, i4⟩ := Newton.initial_control (limitsInput N inp g) b _ hbus
    have hsrc : (!(onBus N.sourceBus b).isEmpty) = true ↔ b ∈ N.sourceBus := by
      rw [Bool.not_eq_true', List.isEmpty_eq_false_iff]
      constructor
      · intro hne
        obtain ⟨k, hk⟩ := List.exists_mem_of_ne_nil _ hne
        exact List.mem_of_getElem? (mem_onBus.mp hk)
      · intro hm
        obtain ⟨k, hk, hkb⟩ := List.getElem_of_mem hm
        exact List.ne_nil_of_mem (mem_onBus.mpr (List.getElem?_eq_some_iff.mpr ⟨hk, hkb⟩))
    have hregs : ∀ r, r ∈ Newton.regulatorsOf (limitsInput N inp g) ⟨!(onBus N.sourceBus b).isEmpty, onBus N.loadBus b⟩ ↔
        ∃ k, N.loadBus[k]? = some b ∧ g.on k = true ∧ r ∈ g.regs k ∧ r.on = true := by
      intro r
      unfold Newton.regulatorsOf
      rw [List.mem_flatMap]
      constructor
      · rintro ⟨k, h1, h2⟩
        have h1' : k ∈ onBus N.loadBus b := h1
        by_cases hon : ((limitsInput N inp g).gen k).on = true
        · rw [if_pos hon, List.mem_filter] at h2
          exact ⟨k, mem_onBus.mp h1', hon, h2.1, h2.2⟩
        · rw [if_neg hon] at h2
          simp at h2
      · rintro ⟨k, h1, h2, h3, h4⟩
        refine ⟨k, mem_onBus.mpr h1, ?_⟩
        have hon : ((limitsInput N inp g).gen k).on = true := h2
        rw [if_pos hon, List.mem_filter]
        exact ⟨h3, h4⟩
    refine ⟨fun hcase => ?_, fun hb1 hb2 => ?_⟩
    · have hne : ((Newton.start (limitsInput N inp g)).ctl b).type ≠ .pv := by
        intro hpv
        obtain ⟨j1, j2⟩ := i1.mp hpv
        rcases hcase with hcase | hcase
        · rw [hsrc.mpr hcase] at j1
          exact absurd j1 (by simp)
        · obtain ⟨r, hr⟩ := List.exists_mem_of_ne_nil _ j2
          obtain ⟨k, h1, h2, h3, h4⟩ := (hregs r).mp hr
          rw [hcase k h1 h2 r h3] at h4
          exact absurd h4 (by simp)
      rw [a4]
      unfold referenceVoltage
      rw [if_neg hne]
    · obtain ⟨k, h1, h2, r, h3, h4⟩ := hb2
      have hpv : ((Newton.start (limitsInput N inp g)).ctl b).type = .pv := by
        refine i1.mpr ⟨?_, List.ne_nil_of_mem ((hregs r).mpr ⟨k, h1, h2, h3, h4⟩)⟩
        rw [← Bool.not_eq_true]
        exact fun e => hb1 (hsrc.mp e)
      obtain ⟨_, _, _, r', hr', he⟩ := i4 hpv
      obtain ⟨k', q1, q2, q3, q4⟩ := (hregs r').mp hr'
      refine ⟨k', r', q1, q2, q3, q4, fun p => ⟨phaseShift (rect (x b) p), phaseShift_norm _, ?_, ?_⟩⟩
      · rw [a4]
        unfold referenceVoltage
        rw [if_pos hpv, he]
      · unfold phaseShift
        split_ifs with hz
        · rw [mul_div_cancel₀]
          exact_mod_cast hz.ne'
        · have : ‖rect (x b) p‖ = 0 := le_antisymm (not_lt.mp hz) (norm_nonneg _)
          rw [norm_eq_zero] at this
          simp only [this]
          simp

/-- A converged run: the iterations that led to it. -/
theorem converged_get {tol t : ℝ} {cacheRun : Bool} {N : PfNet s} (hN : N.Valid) (hc : FillClosed N.T) (inp : PfInput s)
    {g : LoadInfo s} (hg : OneRegulator g) {self : Nr s} (hp : self.perms.length = N.T.nBus) {maxIter : Int} {fuel : Nat} {st : Nr s}
    {u : Nat → CV s} {n : Int} (h : (runPowerFlow (nrSolver tol (.fin t) cacheRun N inp g) (.fin t) maxIter fuel self).2 = .ok st u n) :
    ∃ (st0 : Nr s) (u0 prev : Nat → CV s) (dev : Dbl ℝ) (m : Nat), (nrSolver tol (.fin t) cacheRun N inp g).init self = .ok (st0, u0) ∧
      Iterations (nrSolver tol (.fin t) cacheRun N inp g) (.fin t) m st0 u0 st u prev dev ∧ Dbl.lt (.fin t) dev = false ∧
      ∀ b, b < N.T.nBus → ∀ p, ‖u b p - prev b p‖ ≤ t := by
  obtain ⟨st0, u0, prev, dev, m, h1, h2, _, _, h5, h6⟩ := converged_contract _ _ maxIter fuel self st u n h
  refine ⟨st0, u0, prev, dev, m, h1, h5, h6, ?_⟩
  have hi := init_run (tol := tol) (errTol := .fin t) (cacheRun := cacheRun) hN hc inp g hp h1
  have hd : dev = maxDev 0 ((List.range N.T.nBus).map fun b => voltageDev (prev b) (u b)) ∨ dev = .inf := by
    cases h5 with
    | one hs => exact (nrStep_get tol _ cacheRun hN hc inp hg _ _ _ _ _ hi.1 hs).2.1
    | more h' _ hs => exact (nrStep_get tol _ cacheRun hN hc inp hg _ _ _ _ _ (run_get hN hc inp hg hp h1 h').1 hs).2.1
  rcases hd with hd | hd
  · rw [hd] at h6
    intro b hb p
    obtain ⟨x, e1, e2⟩ := maxDev_bounds 0 t _ (fun d hd => by obtain ⟨c, _, rfl⟩ := List.mem_map.mp hd; simp [voltageDev]) h6
      (voltageDev (prev b) (u b)) (List.mem_map.mpr ⟨b, List.mem_range.mpr hb, rfl⟩)
    exact voltageDev_bound e1 e2 p
  · rw [hd] at h6
    simp [Dbl.lt] at h6

/-- **C54 and C17, what a converged run leaves of the mismatch.** A run that reports convergence with tolerance `t` ended with a Newton step that changed
no voltage by more than `t`. When no angle turned by more than half a turn in that step and no magnitude changed its sign, the power mismatch that is left at a bus is at most `68 (t/m)²` of the sum of the absolute powers at
that bus, where `m + t` bounds the voltages from below. At a voltage-controlled bus this holds of the active power.

Missing to the full property: the condition on the angles, `spurious_convergence`. -/
theorem newton_mismatch_partial {tol t : ℝ} {cacheRun : Bool} {N : PfNet s} (hN : N.Valid) (hc : FillClosed N.T) (inp : PfInput s)
    {g : LoadInfo s} (hg : OneRegulator g) {self : Nr s} (hp : self.perms.length = N.T.nBus) {maxIter : Int} {fuel : Nat} {st : Nr s}
    {u : Nat → CV s} {n : Int} (h : (runPowerFlow (nrSolver tol (.fin t) cacheRun N inp g) (.fin t) maxIter fuel self).2 = .ok st u n) :
    ∃ x d : Nat → Polar s, u = (fun b => phasor (along x d 1 b)) ∧ st.pol = along x d 1 ∧
      NewtonStep N inp g.type st.lim.clamped (fun b => (st.lim.ctl b).type = .pv) x d ∧
      (∀ b, b < N.T.nBus → ∀ p, ‖u b p - phasor (x b) p‖ ≤ t) ∧
      ((∀ b, b < N.T.nBus → ∀ p, |(d b).theta p| ≤ Real.pi ∧ -1 < (d b).v p) →
        ∀ m, 0 < m → 2 * t ≤ m → (∀ b, b < N.T.nBus → ∀ p, m + t ≤ ‖u b p‖) → ∀ b, b < N.T.nBus → ∀ p,
          |(mismatch N inp g.type st.lim.clamped st.pol b p).re| ≤ 68 * (t / m) ^ 2 * gross N inp g.type st.lim.clamped st.pol b p ∧
          ((st.lim.ctl b).type ≠ .pv →
            ‖mismatch N inp g.type st.lim.clamped st.pol b p‖ ≤ 68 * (t / m) ^ 2 * gross N inp g.type st.lim.clamped st.pol b p)) := by
  obtain ⟨st0, u0, prev, dev, m, h1, h2, _, h4⟩ := converged_get hN hc inp hg hp h
  obtain ⟨_, _, _, x, d, e1, e2, e3, e4, _⟩ := run_get hN hc inp hg hp h1 h2
  have hpol : st.pol = fun b => updatePolar (x b) (d b) := funext e3
  refine ⟨x, d, ?_, ?_, e4, fun b hb p => ?_, fun hno m hm hmt hu b hb p => ?_⟩
  · rw [e2]; funext b; rw [along_one]
  · funext b; rw [e3, along_one]
  · have := h4 b hb p
    rwa [e1] at this
  · rw [hpol]
    have := step_bound inp g.type st.lim.clamped _ x d e4 m t hm hmt (fun b hb p => (hno b hb p).2) (fun b hb p => (hno b hb p).1)
      (fun b hb p => by have := hu b hb p; rwa [e2] at this) (fun b hb p => by have := h4 b hb p; rwa [e1, e2] at this) b hb p
    exact ⟨this.1, this.2.1⟩

/-- **C54 and C23, voltage control.** In a converged run a bus without sources and with active voltage regulators either has the reference voltage of one of them,
or all its regulated generators were fixed at a limit of their reactive power. -/
theorem newton_voltage_control {tol t : ℝ} (ht : 0 ≤ tol) {cacheRun : Bool} {N : PfNet s} (hN : N.Valid) (hc : FillClosed N.T) (inp : PfInput s)
    {g : LoadInfo s} (hg : OneRegulator g) {self : Nr s} (hp : self.perms.length = N.T.nBus) {maxIter : Int} {fuel : Nat} {st : Nr s}
    {u : Nat → CV s} {n : Int} (h : (runPowerFlow (nrSolver tol (.fin t) cacheRun N inp g) (.fin t) maxIter fuel self).2 = .ok st u n)
    (b : Nat) (hb : b < N.T.nBus) :
    ((st.lim.ctl b).type = .pv ∧ b ∉ N.sourceBus ∧ (∃ k r, N.loadBus[k]? = some b ∧ g.on k = true ∧ r ∈ g.regs k ∧ r.on = true ∧ ∀ p, ‖u b p‖ = |r.uRef|)) ∨
    ((st.lim.ctl b).type ≠ .pv ∧ b ∉ N.sourceBus ∧ (∃ k, N.loadBus[k]? = some b ∧ g.on k = true ∧ ∃ r ∈ g.regs k, r.on = true) ∧
      ∀ k, N.loadBus[k]? = some b → g.on k = true → ∀ r ∈ g.regs k, r.on = true →
        ∃ m q, (r.lim.qMin = some m ∨ r.lim.qMax = some m) ∧ st.lim.clamped k = some q ∧ total q = m) ∨
    ((st.lim.ctl b).type ≠ .pv ∧ (b ∈ N.sourceBus ∨ ∀ k, N.loadBus[k]? = some b → g.on k = true → ∀ r ∈ g.regs k, r.on = false) ∧
      ∀ k, N.loadBus[k]? = some b → st.lim.clamped k = none) := by
  obtain ⟨st0, u0, prev, dev, m, h1, h2, _, h4⟩ := converged_get hN hc inp hg hp h
  obtain ⟨a1, a2, ⟨its, a3⟩, _⟩ := run_get hN hc inp hg hp h1 h2
  have hbus := limits_bus N inp g hb
  have hb' : b < (limitsInput N inp g).buses.length := by rw [limits_buses]; exact hb
  have hget : (limitsInput N inp g).buses[b] = ⟨!(onBus N.sourceBus b).isEmpty, onBus N.loadBus b⟩ := by
    rw [List.getElem?_eq_getElem hb'] at hbus
    exact Option.some.inj hbus
  obtain ⟨i1, i2, i3, i4⟩ := Newton.initial_control (limitsInput N inp g) b _ hbus
  have hsrc : (!(onBus N.sourceBus b).isEmpty) = true ↔ b ∈ N.sourceBus := by
    rw [Bool.not_eq_true', List.isEmpty_eq_false_iff]
    constructor
    · intro hne
      obtain ⟨k, hk⟩ := List.exists_mem_of_ne_nil _ hne
      exact List.mem_of_getElem? (mem_onBus.mp hk)
    · intro hm
      obtain ⟨k, hk, hkb⟩ := List.getElem_of_mem hm
      exact List.ne_nil_of_mem (mem_onBus.mpr (List.getElem?_eq_some_iff.mpr ⟨hk, hkb⟩))
  have hregs : ∀ r, r ∈ Newton.regulatorsOf (limitsInput N inp g) ⟨!(onBus N.sourceBus b).isEmpty, onBus N.loadBus b⟩ ↔
      ∃ k, N.loadBus[k]? = some b ∧ g.on k = true ∧ r ∈ g.regs k ∧ r.on = true := by
    intro r
    unfold Newton.regulatorsOf
    rw [List.mem_flatMap]
    constructor
    · rintro ⟨k, h1, h2⟩
      have h1' : k ∈ onBus N.loadBus b := h1
      by_cases hon : ((limitsInput N inp g).gen k).on = true
      · rw [if_pos hon, List.mem_filter] at h2
        exact ⟨k, mem_onBus.mp h1', hon, h2.1, h2.2⟩
      · rw [if_neg hon] at h2
        simp at h2
    · rintro ⟨k, h1, h2, h3, h4⟩
      refine ⟨k, mem_onBus.mpr h1, ?_⟩
      have hon : ((limitsInput N inp g).gen k).on = true := h2
      rw [if_pos hon, List.mem_filter]
      exact ⟨h3, h4⟩
  have hfalse : b ∉ N.sourceBus ↔ (!(onBus N.sourceBus b).isEmpty) = false := by
    rw [← hsrc, Bool.not_eq_true]
  have hnorm : ∀ p, ‖u b p‖ = |(st.pol b).v p| := by
    intro p
    rw [a1.volt]
    simp only [phasor]
    rw [norm_mul, mul_comm Complex.I, Complex.norm_exp_ofReal_mul_I, mul_one, Complex.norm_real, Real.norm_eq_abs]
  rcases Newton.switched_at_limit ht (limits_valid N inp g hg) its st.lim a3 b hb' with ⟨f1, f2, f3⟩ | ⟨f1, f2, f3, f4⟩
  · rw [hget] at f3
    by_cases hpv : ((Newton.start (limitsInput N inp g)).ctl b).type = .pv
    · left
      have hpv' : (st.lim.ctl b).type = .pv := by rw [f1]; exact hpv
      obtain ⟨_, _, _, r', hr', he⟩ := i4 hpv
      obtain ⟨k', q1, q2, q3, q4⟩ := (hregs r').mp hr'
      refine ⟨hpv', hfalse.mpr (i1.mp hpv).1, k', r', q1, q2, q3, q4, fun p => ?_⟩
      rw [hnorm, a2 b hb hpv' p, abs_abs, he]
    · right; right
      refine ⟨by rw [f1]; exact hpv, ?_, fun k hk => f3 k (mem_onBus.mpr hk)⟩
      by_cases hsb : b ∈ N.sourceBus
      · exact Or.inl hsb
      · right
        intro k h1 h2 r h3
        by_contra h4
        rw [Bool.not_eq_false] at h4
        exact hpv (i1.mpr ⟨hfalse.mp hsb, List.ne_nil_of_mem ((hregs r).mpr ⟨k, h1, h2, h3, h4⟩)⟩)
  · right; left
    rw [hget] at f4
    obtain ⟨j1, j2⟩ := i1.mp f1
    obtain ⟨r, hr⟩ := List.exists_mem_of_ne_nil _ j2
    obtain ⟨k, q1, q2, q3, q4⟩ := (hregs r).mp hr
    refine ⟨by rw [f2]; simp, hfalse.mpr j1, ⟨k, q1, q2, r, q3, q4⟩, fun k hk hon r hr hron => ?_⟩
    obtain ⟨m, q, e1, e2, e3⟩ := (f4 k (mem_onBus.mpr hk)).2 r hr hon hron
    refine ⟨m, q, ?_, e2, e3⟩
    unfold Newton.limitOf at e1
    cases hv : (st.lim.ctl b).violated with
    | upper => rw [hv] at e1; exact Or.inr e1
    | lower => rw [hv] at e1; exact Or.inl e1
    | none => exact absurd hv f3

/-- **C17 for the Newton-Raphson method.** In the results of a converged run Kirchhoff's law is met at a bus without sources and active voltage regulators up to an
error quadratic in the tolerance `t`.

Missing to the full property: the conditions on the last step and on the sign of the magnitudes, as in `newton_mismatch_partial`, and buses with regulators. -/
theorem newton_results_partial {tol t : ℝ} (ht : 0 ≤ tol) {cacheRun : Bool} {N : PfNet s} (hN : N.Valid) (hc : FillClosed N.T) (inp : PfInput s)
    {g : LoadInfo s} (hg : OneRegulator g) {self : Nr s} (hp : self.perms.length = N.T.nBus) {maxIter : Int} {fuel : Nat} {st : Nr s}
    {u : Nat → CV s} {n : Int} (h : (runPowerFlow (nrSolver tol (.fin t) cacheRun N inp g) (.fin t) maxIter fuel self).2 = .ok st u n)
    (alloc : Nat → PfOutput s → List (Nat × CV s)) (ha : AllocOk N alloc) :
    ∃ x d : Nat → Polar s, u = (fun b => phasor (along x d 1 b)) ∧
      NewtonStep N inp g.type st.lim.clamped (fun b => (st.lim.ctl b).type = .pv) x d ∧
      ((∀ b, b < N.T.nBus → ∀ p, |(d b).theta p| ≤ Real.pi ∧ -1 < (d b).v p ∧ 0 ≤ (x b).v p) →
        ∀ m, 0 < m → 2 * t ≤ m → (∀ b, b < N.T.nBus → ∀ p, m + t ≤ ‖u b p‖) →
        ∀ b, b < N.T.nBus → b ∉ N.sourceBus → (∀ k, N.loadBus[k]? = some b → g.on k = true → ∀ r ∈ g.regs k, r.on = false) → (∀ o, alloc b o = []) →
        ∀ p, let out := pfResult N inp g.type alloc u
          ‖(intoBranches N.T (out.branch.map fun x => (x.iF, x.iT)) b - fromShunts N.T (out.shunt.map (·.cur)) b -
            atBus N.loadBus (fun k => (out.load k).cur) b) p‖ ≤
            68 * (t / m) ^ 2 * ((∑ c ∈ Finset.range N.T.nBus, ∑ q, ‖nodal N.T N.y.param b c p q‖ * ‖u c q‖) +
              (N.loadBus.zipIdx.map fun k => if k.1 = b then ‖inp.sInj k.2 p‖ * factor (g.type k.2) ‖u b p‖ / ‖u b p‖ else 0).sum)) := by
  obtain ⟨x, d, e1, e2, e3, e4, e5⟩ := newton_mismatch_partial hN hc inp hg hp h
  refine ⟨x, d, e1, e3, fun hno m hm hmt hu b hb hsrc hreg hall p => ?_⟩
  have hbound := e5 (fun b hb p => ⟨(hno b hb p).1, (hno b hb p).2.1⟩) m hm hmt hu b hb p
  have ht0 : 0 ≤ t := (norm_nonneg _).trans (e4 b hb p)
  have hune : ∀ q, 0 < ‖u b q‖ := fun q => by have := hu b hb q; linarith
  have hctl := newton_voltage_control ht hN hc inp hg hp h b hb
  have hnopv : (st.lim.ctl b).type ≠ .pv ∧ ∀ k, N.loadBus[k]? = some b → st.lim.clamped k = none := by
    rcases hctl with ⟨_, _, k, r, k1, k2, k3, k4, _⟩ | ⟨_, _, ⟨k, k1, k2, r, k3, k4⟩, _⟩ | ⟨k1, _, k3⟩
    · rw [hreg k k1 k2 r k3] at k4
      exact absurd k4 (by simp)
    · rw [hreg k k1 k2 r k3] at k4
      exact absurd k4 (by simp)
    · exact ⟨k1, k3⟩
  have hupol : u = fun b => phasor (st.pol b) := by rw [e1, e2]
  have hv0 : ∀ p, 0 ≤ (st.pol b).v p := by
    intro p
    rw [e2, along_one]
    obtain ⟨_, h1, h2⟩ := hno b hb p
    have : (updatePolar (x b) (d b)).v p = (x b).v p * (1 + (d b).v p) := by
      simp only [updatePolar]
      ring
    rw [this]
    exact mul_nonneg h2 (by linarith)
  have hune' : ∀ p, phasor (st.pol b) p ≠ 0 := fun q e => by
    have := hune q
    rw [hupol] at this
    simp [e] at this
  have hk := kirchhoff_mismatch hN inp g.type alloc ha st.lim.clamped st.pol b hb hsrc hall hnopv.2 (fun _ _ _ p => hv0 p) hune' p
  simp only at hk ⊢
  rw [← hupol] at hk
  rw [hk]
  have hub : ‖phasor (st.pol b) p‖ = ‖u b p‖ := by rw [hupol]
  rw [hub, div_le_iff₀ (hune p)]
  refine (hbound.2 hnopv.1).trans (le_of_eq ?_)
  rw [mul_assoc (68 * (t / m) ^ 2)]
  congr 1
  have hsrc' : onBus N.sourceBus b = [] := by
    rw [List.eq_nil_iff_forall_not_mem]
    intro k hk
    exact hsrc (List.mem_of_getElem? (mem_onBus.mp hk))
  unfold gross
  rw [onBus_sum_real N.sourceBus (fun k => ∑ q, ‖phasor (st.pol b) p‖ * ‖yRef s (N.y1 k) (N.y0 k) p q‖ *
      (‖spread s (inp.source k) q‖ + ‖phasor (st.pol b) q‖)) b, hsrc']
  rw [onBus_sum_real N.loadBus (fun k => ‖given inp g.type st.lim.clamped (st.pol b).v k p‖) b,
    onBus_sum_real N.loadBus (fun k => ‖inp.sInj k p‖ * factor (g.type k) ‖u b p‖ / ‖u b p‖) b]
  simp only [List.map_nil, List.sum_nil, add_zero]
  rw [add_mul]
  have hub' : ∀ c q, ‖phasor (st.pol c) q‖ = ‖u c q‖ := fun c q => by rw [hupol]
  congr 1
  · rw [Finset.sum_mul]
    refine Finset.sum_congr rfl fun c _ => ?_
    rw [Finset.sum_mul]
    refine Finset.sum_congr rfl fun q _ => ?_
    rw [hub', hub']
    ring
  · have hmul : ∀ (l : List Nat) (f : Nat → ℝ) (a : ℝ), (l.map f).sum * a = (l.map fun k => f k * a).sum := by
      intro l f a
      induction l with
      | nil => simp
      | cons y l ih => simp only [List.map_cons, List.sum_cons, add_mul, ih]
    rw [hmul]
    congr 1
    apply List.map_congr_left
    intro k hk
    rw [div_mul_cancel₀ _ (hune p).ne']
    unfold given
    rw [hnopv.2 k (mem_onBus.mp hk)]
    simp only
    rw [norm_mul]
    congr 1
    have hv : (st.pol b).v p = ‖u b p‖ := by
      rw [hupol]
      simp only [phasor]
      rw [norm_mul, mul_comm Complex.I, Complex.norm_exp_ofReal_mul_I, mul_one, Complex.norm_real, Real.norm_eq_abs, abs_of_nonneg (hv0 p)]
    rw [hv, Complex.norm_real, Real.norm_eq_abs, abs_of_nonneg]
    cases g.type k <;> simp only [factor] <;> positivity

/-- **C54, errors.** A Newton-Raphson power flow ends with nothing but a result, divergence, a singular matrix, or the report of a voltage regulator at a load or generator that is
not of constant power. -/
theorem newton_total {tol : ℝ} {errTol : Dbl ℝ} {cacheRun : Bool} {N : PfNet s} (hN : N.Valid) (hc : FillClosed N.T) (inp : PfInput s)
    {g : LoadInfo s} (hg : OneRegulator g) {self : Nr s} (hp : self.perms.length = N.T.nBus) (maxIter : Int) (fuel : Nat) (e : NrErr)
    (h : (runPowerFlow (nrSolver tol errTol cacheRun N inp g) errTol maxIter fuel self).2 = .error (.solver e)) :
    e = .sparse .singular ∨
      (e = .unsupported ∧ ∃ k b, N.loadBus[k]? = some b ∧ b ∉ N.sourceBus ∧ g.on k = true ∧ (∃ r ∈ g.regs k, r.on = true) ∧ g.type k ≠ .constPq) := by
  -- one step
  have hstep : ∀ (st : Nr s) (u : Nat → CV s), Inv N st u →
      (∃ its, Newton.iterations tol errTol cacheRun (limitsInput N inp g) its (Newton.start (limitsInput N inp g)) = some st.lim) →
      nrStep tol errTol cacheRun N inp g st u = .error e → e = .sparse .singular ∨
      (e = .unsupported ∧ ∃ k b, N.loadBus[k]? = some b ∧ b ∉ N.sourceBus ∧ g.on k = true ∧ (∃ r ∈ g.regs k, r.on = true) ∧ g.type k ≠ .constPq) := by
    intro st u hI ⟨its, hits⟩ hs
    unfold nrStep at hs
    cases hpr : prepare tol N inp g st u with
    | some st1 =>
      left
      rw [hpr] at hs
      simp only at hs
      obtain ⟨p1, p2, p3, _⟩ := prepare_get tol hN inp hg st st1 u hI.jac hpr
      rcases solve_total' hN hc p3.1 st1.perms (by rw [p2]; exact hI.perms) with e1 | ⟨d, e1⟩
      · rw [e1] at hs
        simp only [liftErr, bind, Except.bind] at hs
        injection hs with hs
        exact hs.symm
      · rw [e1] at hs
        simp [liftErr, bind, Except.bind] at hs
    | none =>
      right
      rw [hpr] at hs
      simp only at hs
      injection hs with hs
      refine ⟨hs.symm, ?_⟩
      -- the limits
      unfold prepare at hpr
      set dq : Nat → RV s ℝ := fun b => ((build N inp g.type st.lim.clamped st.pol u (fun _ => false) st.sys).pq b).q with hdq
      have hlim : Newton.prepare tol (limitsInput N inp g) dq st.lim = none := by
        cases hq : Newton.prepare tol (limitsInput N inp g) dq st.lim with
        | none => rfl
        | some y =>
          simp only [bind] at hpr
          rw [← hdq, hq] at hpr
          simp at hpr
      obtain ⟨b, hb, hpv, hspec⟩ := prepare_none (limits_valid N inp g hg) its st.lim hits dq hlim
      have hbn : b < N.T.nBus := by rw [← limits_buses N inp g]; exact hb
      have hbus := limits_bus N inp g hbn
      have hget : (limitsInput N inp g).buses[b] = ⟨!(onBus N.sourceBus b).isEmpty, onBus N.loadBus b⟩ := by
        rw [List.getElem?_eq_getElem hb] at hbus
        exact Option.some.inj hbus
      have i1 := ((Newton.initial_control (limitsInput N inp g) b _ hbus).1.mp hpv).1
      rw [hget] at hspec
      obtain ⟨k, k1, k2, k3, k4⟩ := specified_none _ _ hspec
      refine ⟨k, b, mem_onBus.mp k1, fun hsrc => ?_, k2, k3, ?_⟩
      · obtain ⟨j, hj, hjb⟩ := List.getElem_of_mem hsrc
        have hne : onBus N.sourceBus b ≠ [] := List.ne_nil_of_mem (mem_onBus.mpr (List.getElem?_eq_some_iff.mpr ⟨hj, hjb⟩))
        simp only [Bool.not_eq_false'] at i1
        exact hne (List.isEmpty_iff.mp i1)
      · simpa [limitsInput] using k4
  have hloop : ∀ (fuel : Nat) (n : Int) (dev : Dbl ℝ) (st : Nr s) (u : Nat → CV s), Inv N st u → Controlled N inp g st →
      (∃ its, Newton.iterations tol errTol cacheRun (limitsInput N inp g) its (Newton.start (limitsInput N inp g)) = some st.lim) →
      pfLoop (nrSolver tol errTol cacheRun N inp g) errTol maxIter fuel n dev st u = .error (.solver e) → e = .sparse .singular ∨
      (e = .unsupported ∧ ∃ k b, N.loadBus[k]? = some b ∧ b ∉ N.sourceBus ∧ g.on k = true ∧ (∃ r ∈ g.regs k, r.on = true) ∧ g.type k ≠ .constPq) := by
    intro fuel
    induction fuel with
    | zero => intro n dev st u _ _ _ h; simp [pfLoop] at h
    | succ fuel ih =>
      intro n dev st u hI hC hits h
      unfold pfLoop at h
      split_ifs at h
      · injection h with h
        cases h
      have hs' : (nrSolver tol errTol cacheRun N inp g).step st u = nrStep tol errTol cacheRun N inp g st u := rfl
      rw [hs'] at h
      cases hs : nrStep tol errTol cacheRun N inp g st u with
      | error e' =>
        rw [hs] at h
        simp only at h
        injection h with h
        injection h with h
        subst h
        exact hstep st u hI hits hs
      | ok y =>
        obtain ⟨st', u', dev'⟩ := y
        rw [hs] at h
        obtain ⟨b1, b2, b3, _⟩ := step_run hN hc inp hg hI hC hits hs
        exact ih _ _ _ _ b1 b2 b3 h
  unfold runPowerFlow at h
  have hi' : (nrSolver tol errTol cacheRun N inp g).init self = nrInit N inp g self := rfl
  simp only [hi'] at h
  cases hi : nrInit N inp g self with
  | error e' =>
    rw [hi] at h
    simp only at h
    injection h with h
    injection h with h
    subst h
    left
    unfold nrInit at hi
    rcases solve_total' hN hc (start_get hN inp g).1.1 self.perms hp with e1 | ⟨d, e1⟩
    · rw [e1] at hi
      simp only [liftErr, bind, Except.bind] at hi
      injection hi with hi
      exact hi.symm
    · rw [e1] at hi
      simp [liftErr, bind, Except.bind] at hi
  | ok y =>
    obtain ⟨st, u⟩ := y
    rw [hi] at h
    obtain ⟨b1, b2, b3⟩ := init_run (tol := tol) (errTol := errTol) (cacheRun := cacheRun) hN hc inp g hp hi
    exact hloop _ _ _ _ _ b1 b2 b3 h

end PGM.NewtonPf
