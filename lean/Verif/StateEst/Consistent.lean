import Verif.StateEst.Props

/-!
# C53: measurements without errors
-/

namespace PGM.StateEst

open PGM.YBus PGM.Lu PGM.PowerFlow

variable {s : Symm}

/-! ## Lemmas -/

theorem misfit_nonneg (t : Term s) (ht : ∀ p, 0 ≤ t.var p) (u : Nat → CV s) : 0 ≤ t.misfit u := by
  unfold Term.misfit
  apply Finset.sum_nonneg
  intro p _
  split_ifs
  · exact le_rfl
  · exact div_nonneg (by positivity) (ht p)

theorem cost_nonneg (l : List (Term s)) (hl : ∀ t ∈ l, ∀ p, 0 ≤ t.var p) (u : Nat → CV s) : 0 ≤ cost l u := by
  unfold cost
  apply List.sum_nonneg
  intro x hx
  obtain ⟨t, ht, rfl⟩ := List.mem_map.mp hx
  exact misfit_nonneg t (hl t ht) u

theorem cost_zero (l : List (Term s)) (u : Nat → CV s) (h : ∀ t ∈ l, t.predict u = t.target) : cost l u = 0 := by
  unfold cost
  apply List.sum_eq_zero
  intro x hx
  obtain ⟨t, ht, rfl⟩ := List.mem_map.mp hx
  unfold Term.misfit
  apply Finset.sum_eq_zero
  intro p _
  rw [h t ht]
  simp

/-- Voltages that explain all measurements are the estimate. -/
theorem estimate_exact {n : Nat} {l : List (Term s)} (hl : ∀ t ∈ l, ∀ p, 0 ≤ t.var p) {u w : Nat → CV s} (h : ∀ t ∈ l, t.predict u = t.target)
    (hw : IsEstimate n l w) : ∀ b, b < n → w b = u b := by
  have hu := hw.2 u fun t ht p _ => by rw [h t ht]
  rw [cost_zero l u h] at hu
  intro b hb
  exact (hu.2 (le_antisymm (cost_nonneg l hl w) hu.1) b hb).symm

theorem estimate_unique {n : Nat} {l : List (Term s)} {w w' : Nat → CV s} (h : IsEstimate n l w) (h' : IsEstimate n l w') (b : Nat) (hb : b < n) :
    w b = w' b := by
  have h1 := h.2 w' h'.1
  have h2 := h'.2 w h.1
  exact (h1.2 (le_antisymm h2.1 h1.1) b hb).symm

theorem terms_nonneg {T : Topo} (hl : NoLoops T) {P : Param (CM s)} {M : Measured s} (hM : M.Valid) (v : Nat → CV s) :
    ∀ t ∈ terms T P M v, ∀ p, 0 ≤ t.var p := by
  rw [← solvedTerms_eq hl]
  exact solved_nonneg hM

theorem asCurrent_eq {m : PowerM s} {u i : CV s} (h : IsPower m.value u i) : asCurrent m u = i := by
  funext p
  unfold asCurrent
  rw [(h p).2, mul_div_cancel_left₀ _ (h p).1, star_star]

theorem asGlobal_eq {m : CurrM s} {u i : CV s} (h : ShowsCurrent m u i) : asGlobal m u = i := by
  unfold ShowsCurrent at h
  unfold asGlobal
  split_ifs with hg
  · rw [if_pos hg] at h
    exact h
  · rw [if_neg hg] at h
    funext p
    rw [h p, star_mul', star_star]
    have : star (Complex.exp ((Complex.arg (u p) : ℂ) * Complex.I)) * Complex.exp ((Complex.arg (u p) : ℂ) * Complex.I) = 1 := by
      show (starRingEnd ℂ) _ * _ = 1
      rw [← Complex.normSq_eq_conj_mul_self, Complex.normSq_eq_norm_sq, Complex.norm_exp_ofReal_mul_I]
      norm_num
    rw [mul_right_comm, this, one_mul]

theorem assumed_exact {T : Topo} {P : Param (CM s)} {M : Measured s} {u : Nat → CV s} (h : Exact T P M u) : assumed M u = u := by
  funext b
  unfold assumed
  cases hm : M.voltage b with
  | none => rfl
  | some m =>
    obtain ⟨v | v, var⟩ := m
    · funext p
      simp only
      rw [h.magnitude b v var hm p, Complex.norm_mul_exp_arg_mul_I]
    · exact h.phasor b v var hm

theorem terms_exact {T : Topo} {P : Param (CM s)} {M : Measured s} {u : Nat → CV s} (h : Exact T P M u) :
    ∀ t ∈ terms T P M u, t.predict u = t.target := by
  intro t ht
  unfold terms at ht
  rcases List.mem_append.mp ht with ht | ht
  · rcases List.mem_append.mp ht with ht | ht
    · rcases List.mem_append.mp ht with ht | ht
      · obtain ⟨b, _, ht⟩ := List.mem_filterMap.mp ht
        obtain ⟨m, _, rfl⟩ := Option.map_eq_some_iff.mp ht
        rfl
      · obtain ⟨x, hx, ht⟩ := List.mem_filterMap.mp ht
        obtain ⟨m, hm, rfl⟩ := Option.map_eq_some_iff.mp ht
        exact (asCurrent_eq (h.shunt x hx m hm)).symm
    · obtain ⟨b, hb, ht⟩ := List.mem_flatMap.mp ht
      unfold oneBranch at ht
      simp only [List.mem_append, Option.mem_toList, Option.map_eq_some_iff] at ht
      rcases ht with ((⟨m, hm, rfl⟩ | ⟨m, hm, rfl⟩) | ⟨m, hm, rfl⟩) | ⟨m, hm, rfl⟩
      · exact (asCurrent_eq (h.fromPower b hb m hm)).symm
      · exact (asGlobal_eq (h.fromCurrent b hb m hm)).symm
      · exact (asCurrent_eq (h.toPower b hb m hm)).symm
      · exact (asGlobal_eq (h.toCurrent b hb m hm)).symm
  · obtain ⟨b, hb, ht⟩ := List.mem_filterMap.mp ht
    obtain ⟨m, hm, rfl⟩ := Option.map_eq_some_iff.mp ht
    exact (asCurrent_eq (h.injection b m (List.mem_range.mp hb) hm)).symm

theorem assumed_at {M : Measured s} {b : Nat} (h : PhasorAt M b) (u u' : Nat → CV s) : assumed M u b = assumed M u' b := by
  obtain ⟨v, var, h⟩ := h
  unfold assumed
  rw [h]

theorem assumed_side {M : Measured s} {o : Option Nat} (h : ∀ r, o = some r → PhasorAt M r) (u u' : Nat → CV s) :
    sideVoltage (assumed M u) o = sideVoltage (assumed M u') o := by
  cases o with
  | none => rfl
  | some r => exact assumed_at (h r rfl) u u'

theorem global_side {M : Measured s} {m : CurrM s} {o : Option Nat} (h : m.globalAngle = false → ∀ r, o = some r → PhasorAt M r) (u u' : Nat → CV s) :
    asGlobal m (sideVoltage (assumed M u) o) = asGlobal m (sideVoltage (assumed M u') o) := by
  cases hg : m.globalAngle with
  | true => unfold asGlobal; rw [hg]; rfl
  | false => rw [assumed_side (h hg) u u']

theorem terms_linear {T : Topo} {P : Param (CM s)} {M : Measured s} (h : Linear T M) (u u' : Nat → CV s) :
    terms T P M (assumed M u) = terms T P M (assumed M u') := by
  unfold terms voltageTerms shuntTerms branchTerms injectionTerms
  congr 1
  · congr 1
    · congr 1
      · apply List.filterMap_congr
        intro b _
        apply Option.map_congr
        intro m hm
        rw [assumed_at (h.phasors b m hm) u u']
      · apply List.filterMap_congr
        intro x hx
        apply Option.map_congr
        intro m hm
        rw [assumed_at (h.shunt x hx m hm) u u']
    · apply List.flatMap_congr
      intro b hb
      unfold oneBranch
      congr 1
      · congr 1
        · congr 1
          · congr 1
            apply Option.map_congr
            intro m hm
            rw [assumed_side (h.fromSide b hb (Or.inl ⟨m, hm⟩)) u u']
          · congr 1
            apply Option.map_congr
            intro m hm
            rw [global_side (fun hg => h.fromSide b hb (Or.inr ⟨m, hm, hg⟩)) u u']
        · congr 1
          apply Option.map_congr
          intro m hm
          rw [assumed_side (h.toSide b hb (Or.inl ⟨m, hm⟩)) u u']
      · congr 1
        apply Option.map_congr
        intro m hm
        rw [global_side (fun hg => h.toSide b hb (Or.inr ⟨m, hm, hg⟩)) u u']
  · apply List.filterMap_congr
    intro b hb
    apply Option.map_congr
    intro m hm
    rw [assumed_at (h.injection b m (List.mem_range.mp hb) hm) u u']

theorem reported_congr {n slack : Nat} (hs : slack < n) {M : Measured s} {w w' : Nat → CV s} (h : ∀ b, b < n → w b = w' b) (b : Nat) (hb : b < n) :
    reported n slack M w b = reported n slack M w' b := by
  unfold reported rotated
  rw [h b hb, h slack hs]

/-! ## C53 -/

/-- **C53, the true state is not left.** If every sensor shows exactly what the voltages `u` cause, an iteration that starts from `u` ends there, and
the estimation returns `u`. Without a measured angle `u` has to have the angle that the code uses as reference. -/
theorem exact_stays_partial {N : SeNet s} (hN : N.Valid) (hl : NoLoops N.T) {M : Measured s} (hM : M.Valid) {use : Bool} {old : List (Gain s)}
    (hold : old.length = N.S.colIndicesLu.length) {perms : List (BlockPerm (s.phases + s.phases))} (hlen : perms.length = N.T.nBus)
    {f : Factors ℂ (s.phases + s.phases)} (hf : prefactorize (luPattern N.S) use (gainData N M old) perms = .ok f)
    (hex : f.perturbed = false ∨ use = false) {u : Nat → CV s} (hu : Exact N.T N.y.param M u)
    (href : HasAngle N.T.nBus M ∨ ∃ x : ℝ, 0 < x ∧ phaseA (u N.slack) = x) {tol : ℝ} (htol : 0 ≤ tol) (maxIter : Nat) :
    ∃ u', seLoop N M f (gainData N M old) tol (maxIter + 1) u = .ok u' ∧ ∀ b, b < N.T.nBus → u' b = u b := by
  obtain ⟨w, u', dev, h1, h2, h3, h4⟩ := iteration_estimate_partial hN hl hM hold hlen hf hex u
  rw [assumed_exact hu] at h1
  have hw := estimate_exact (terms_nonneg hl hM u) (terms_exact hu) h1
  have h5 : ∀ b, b < N.T.nBus → u' b = u b := by
    intro b hb
    rw [h3 _ b hb, reported_congr hN.slack hw b hb]
    · unfold reported rotated
      split_ifs with ha
      · rfl
      · obtain ⟨x, hx, e⟩ := href.resolve_left ha
        rw [e, Complex.arg_ofReal_of_nonneg hx.le]
        simp
    · refine href.imp id ?_
      rintro ⟨x, hx, e⟩
      rw [hw _ hN.slack, e]
      exact_mod_cast hx.ne'
  refine ⟨u', ?_, h5⟩
  unfold seLoop
  rw [h2]
  simp only
  rw [if_neg]
  rw [gt_iff_lt, not_lt, h4 tol htol]
  intro b hb p
  rw [h5 b hb, sub_self, norm_zero]
  exact htol

/-- **C53, linear measurements are solved.** If the powers and the local currents are measured where a voltage phasor is, the estimation returns after at
most two iterations, from any start, with the weighted least squares estimate for the measurements themselves. -/
theorem linear_solved_partial {N : SeNet s} (hN : N.Valid) (hl : NoLoops N.T) {M : Measured s} (hM : M.Valid) {use : Bool} {old : List (Gain s)}
    (hold : old.length = N.S.colIndicesLu.length) {perms : List (BlockPerm (s.phases + s.phases))} (hlen : perms.length = N.T.nBus)
    {f : Factors ℂ (s.phases + s.phases)} (hf : prefactorize (luPattern N.S) use (gainData N M old) perms = .ok f)
    (hex : f.perturbed = false ∨ use = false) (hlin : Linear N.T M) (hang : HasAngle N.T.nBus M) {tol : ℝ} (htol : 0 ≤ tol) (maxIter : Nat)
    (start v : Nat → CV s) :
    ∃ u w, seLoop N M f (gainData N M old) tol (maxIter + 2) start = .ok u ∧
      IsEstimate N.T.nBus (terms N.T N.y.param M (assumed M v)) w ∧ ∀ b, b < N.T.nBus → u b = w b := by
  have step : ∀ u, ∃ u' dev, seIteration N M f (gainData N M old) u = .ok (u', dev) ∧
      (∀ t, 0 ≤ t → (dev ≤ t ↔ ∀ b, b < N.T.nBus → ∀ p, ‖u' b p - u b p‖ ≤ t)) ∧
      ∃ w, IsEstimate N.T.nBus (terms N.T N.y.param M (assumed M v)) w ∧ ∀ b, b < N.T.nBus → u' b = w b := by
    intro u
    obtain ⟨w, u', dev, h1, h2, h3, h4⟩ := iteration_estimate_partial hN hl hM hold hlen hf hex u
    rw [terms_linear hlin u v] at h1
    refine ⟨u', dev, h2, h4, w, h1, fun b hb => ?_⟩
    rw [h3 (Or.inl hang) b hb]
    unfold reported
    rw [if_pos hang]
  obtain ⟨u₁, d₁, a1, a2, w₁, a3, a4⟩ := step start
  obtain ⟨u₂, d₂, b1, b2, w₂, b3, b4⟩ := step u₁
  unfold seLoop
  rw [a1]
  simp only
  split_ifs with h
  · unfold seLoop
    rw [b1]
    simp only
    rw [if_neg]
    · exact ⟨u₂, w₂, rfl, b3, b4⟩
    · rw [gt_iff_lt, not_lt, b2 tol htol]
      intro b hb p
      rw [b4 b hb, a4 b hb, estimate_unique a3 b3 b hb, sub_self, norm_zero]
      exact htol
  · exact ⟨u₁, w₁, rfl, a3, a4⟩

/-- **C53, exact linear measurements give the exact state.** -/
theorem exact_recovered_partial {N : SeNet s} (hN : N.Valid) (hl : NoLoops N.T) {M : Measured s} (hM : M.Valid) {use : Bool} {old : List (Gain s)}
    (hold : old.length = N.S.colIndicesLu.length) {perms : List (BlockPerm (s.phases + s.phases))} (hlen : perms.length = N.T.nBus)
    {f : Factors ℂ (s.phases + s.phases)} (hf : prefactorize (luPattern N.S) use (gainData N M old) perms = .ok f)
    (hex : f.perturbed = false ∨ use = false) (hlin : Linear N.T M) (hang : HasAngle N.T.nBus M) {u : Nat → CV s}
    (hu : Exact N.T N.y.param M u) {tol : ℝ} (htol : 0 ≤ tol) (maxIter : Nat) (start : Nat → CV s) :
    ∃ u', seLoop N M f (gainData N M old) tol (maxIter + 2) start = .ok u' ∧ ∀ b, b < N.T.nBus → u' b = u b := by
  obtain ⟨u', w, h1, h2, h3⟩ := linear_solved_partial hN hl hM hold hlen hf hex hlin hang htol maxIter start u
  rw [assumed_exact hu] at h2
  have hw := estimate_exact (terms_nonneg hl hM u) (terms_exact hu) h2
  exact ⟨u', h1, fun b hb => (h3 b hb).trans (hw b hb)⟩

end PGM.StateEst
