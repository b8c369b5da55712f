import Verif.StateEst.Matrix

/-!
# C52 and C53: what the iterative linear state estimation computes
-/

namespace PGM.StateEst

open PGM.YBus PGM.Lu PGM.PowerFlow

variable {s : Symm}

/-! ## Lemmas -/

theorem linearize_eq (M : Measured s) (u : Nat → CV s) : linearize M u = assumed M u := by
  funext b
  unfold linearize assumed
  cases hm : M.voltage b with
  | none => rfl
  | some m =>
    obtain ⟨v | m, var⟩ := m
    · funext p
      simp only [phaseShift_eq]
    · rfl

theorem scaled_one (t : Term s) : t.scaled 1 = t := by
  unfold Term.scaled
  simp

/-- Without loops every value is counted once. -/
theorem solvedTerms_eq {T : Topo} (hl : NoLoops T) (P : Param (CM s)) (M : Measured s) (v : Nat → CV s) : solvedTerms T P M v = terms T P M v := by
  unfold solvedTerms solvedMain terms branchTerms
  congr 2
  apply List.flatMap_congr
  intro b hb
  have hm : multiplicity b = 1 := by
    unfold multiplicity
    rw [if_neg]
    rintro ⟨h1, h2⟩
    obtain ⟨r, hr⟩ := Option.ne_none_iff_exists'.mp h1
    have hb' : b.1 ∈ T.branches := List.mem_of_getElem? (List.mem_zipIdx_iff_getElem?.mp hb)
    exact hl _ hb' r ⟨hr, h2 ▸ hr⟩
  rw [hm]
  conv_rhs => rw [← List.map_id (oneBranch P M v b)]
  exact List.map_congr_left fun t _ => scaled_one t

theorem hasAngle_iff (n : Nat) (M : Measured s) : hasAngle n M = true ↔ HasAngle n M := by
  unfold hasAngle HasAngle
  rw [List.any_eq_true]
  constructor
  · rintro ⟨b, hb, h⟩
    refine ⟨b, List.mem_range.mp hb, ?_⟩
    unfold isPhasor at h
    split at h
    · exact ⟨_, _, by assumption⟩
    · exact absurd h (by simp)
  · rintro ⟨b, hb, u, var, h⟩
    exact ⟨b, List.mem_range.mpr hb, by rw [h]; rfl⟩

/-- The rotation by the code. -/
theorem offset_eq {z : ℂ} (hz : z ≠ 0) : ((‖z‖ : ℝ) : ℂ) / z = Complex.exp (-(Complex.arg z * Complex.I)) := by
  have h1 := phaseShift_eq z
  unfold phaseShift at h1
  rw [if_pos (norm_pos_iff.mpr hz)] at h1
  rw [Complex.exp_neg, ← h1, inv_div]

theorem foldMax_le {A : Type} (f : A → ℝ) (t : ℝ) (l : List A) (m : ℝ) :
    l.foldl (fun m x => max m (f x)) m ≤ t ↔ m ≤ t ∧ ∀ x ∈ l, f x ≤ t := by
  induction l generalizing m with
  | nil => simp
  | cons a l ih =>
    rw [List.foldl_cons, ih, max_le_iff]
    simp only [List.mem_cons, forall_eq_or_imp]
    tauto

theorem deviation_le (n : Nat) (u u' : Nat → CV s) {t : ℝ} (ht : 0 ≤ t) :
    deviation n u u' ≤ t ↔ ∀ b, b < n → ∀ p, ‖u' b p - u b p‖ ≤ t := by
  unfold deviation
  rw [foldMax_le]
  constructor
  · rintro ⟨_, h⟩ b hb p
    exact ((foldMax_le _ _ _ _).mp (h b (List.mem_range.mpr hb))).2 p (List.mem_finRange p)
  · intro h
    exact ⟨ht, fun b hb => (foldMax_le _ _ _ _).mpr ⟨ht, fun p _ => h b (List.mem_range.mp hb) p⟩⟩

/-- One iteration, with what it computes when the branches may be loops: the estimate, and the factor it is rotated with. -/
theorem iteration_core {N : SeNet s} (hN : N.Valid) {M : Measured s} (hM : M.Valid) {use : Bool} {old : List (Gain s)}
    (hold : old.length = N.S.colIndicesLu.length) {perms : List (BlockPerm (s.phases + s.phases))} (hlen : perms.length = N.T.nBus)
    {f : Factors ℂ (s.phases + s.phases)} (hf : prefactorize (luPattern N.S) use (gainData N M old) perms = .ok f)
    (hex : f.perturbed = false ∨ use = false) (u : Nat → CV s) :
    ∃ w u', IsEstimate N.T.nBus (solvedTerms N.T N.y.param M (assumed M u)) w ∧
      seIteration N M f (gainData N M old) u = .ok (u', deviation N.T.nBus u u') ∧
      (HasAngle N.T.nBus M ∨ phaseA (w N.slack) ≠ 0 → ∀ b, b < N.T.nBus → u' b = reported N.T.nBus N.slack M w b) ∧
      ∃ c : ℂ, ∀ b, u' b = fun p => w b p * c := by
  have hv := structure_valid hN.topo hN.fill hN.structure_
  have hA := gain_holds hN M old hold
  have hflag : f.perturbed = false := by
    rcases hex with h | rfl
    · exact h
    · exact prefactorize_flag hv _ _ perms hA.zero hA.rep hlen f hf
  have hb : (prepareRhs N.T N.S N.y.param M u).length = N.T.nBus := by unfold prepareRhs; simp
  obtain ⟨_, ⟨x, hx, hsys⟩, huniq⟩ := solve_unperturbed hv use _ _ perms hA hlen f hf hex (prepareRhs N.T N.S N.y.param M u) _ hb hb
  have heq := equations_of_system hN M u x hsys
  have hest := estimate_of_equations hN.topo hN.structure_ hM heq (fun u' φ' h b hb => by
    have h1 := huniq _ _ (system_of_equations hN M u u' φ' h) hsys
    have h2 : at' x b = join (u' b) (φ' b) := by
      rw [← h1]
      funext t
      unfold at'
      rw [List.getElem?_map, List.getElem?_range hb]
      rfl
    show u' b = upper (at' x b)
    rw [h2, upper_join])
  rw [linearize_eq] at hest
  have hget : ∀ b, x[b]?.getD 0 = at' x b := by
    intro b
    funext t
    unfold at'
    cases x[b]? <;> rfl
  refine ⟨_, newVoltage N M x, hest, ?_, ?_, angleOffset (hasAngle N.T.nBus M) (upper (at' x N.slack)), fun b => by unfold newVoltage; simp only [hget]⟩
  · unfold seIteration solvePrefactorized
    rw [hflag, if_neg (by simp), hx]
    rfl
  · intro hz b hb
    unfold newVoltage reported angleOffset
    by_cases ha : HasAngle N.T.nBus M
    · rw [if_pos ha]
      simp only [(hasAngle_iff _ _).mpr ha, if_true, mul_one, hget]
    · have ha' : hasAngle N.T.nBus M = false := by rw [← Bool.not_eq_true, hasAngle_iff]; exact ha
      rw [if_neg ha]
      simp only [ha', hget]
      unfold rotated
      funext p
      rw [← offset_eq (hz.resolve_left ha)]
      rfl

/-- One iteration, with what it computes when the branches may be loops. -/
theorem iteration_general {N : SeNet s} (hN : N.Valid) {M : Measured s} (hM : M.Valid) {use : Bool} {old : List (Gain s)}
    (hold : old.length = N.S.colIndicesLu.length) {perms : List (BlockPerm (s.phases + s.phases))} (hlen : perms.length = N.T.nBus)
    {f : Factors ℂ (s.phases + s.phases)} (hf : prefactorize (luPattern N.S) use (gainData N M old) perms = .ok f)
    (hex : f.perturbed = false ∨ use = false) (u : Nat → CV s) :
    ∃ w u', IsEstimate N.T.nBus (solvedTerms N.T N.y.param M (assumed M u)) w ∧
      seIteration N M f (gainData N M old) u = .ok (u', deviation N.T.nBus u u') ∧
      (HasAngle N.T.nBus M ∨ phaseA (w N.slack) ≠ 0 → ∀ b, b < N.T.nBus → u' b = reported N.T.nBus N.slack M w b) := by
  obtain ⟨w, u', h1, h2, h3, _⟩ := iteration_core hN hM hold hlen hf hex u
  exact ⟨w, u', h1, h2, h3⟩

/-! ## C52 -/

/-- **C52, an iteration is a weighted least squares estimate.** Whatever the iteration starts from, it does not fail, and it reports the weighted
least squares estimate for the measurements with the powers and local currents converted at the voltages it starts from: the measurements with
variance zero are met, no other voltages that meet them have a lower sum of weighted squares, and none have an equal one. `dev` says how far the
voltages have moved.

What is missing is loops, see `loop_counted_twice`, and that the estimate has a reference angle: without a measured angle, and with a zero estimate at
the slack bus, the code divides by zero. -/
theorem iteration_estimate_partial {N : SeNet s} (hN : N.Valid) (hl : NoLoops N.T) {M : Measured s} (hM : M.Valid) {use : Bool}
    {old : List (Gain s)} (hold : old.length = N.S.colIndicesLu.length) {perms : List (BlockPerm (s.phases + s.phases))}
    (hlen : perms.length = N.T.nBus) {f : Factors ℂ (s.phases + s.phases)}
    (hf : prefactorize (luPattern N.S) use (gainData N M old) perms = .ok f) (hex : f.perturbed = false ∨ use = false) (u : Nat → CV s) :
    ∃ w u' dev, IsEstimate N.T.nBus (terms N.T N.y.param M (assumed M u)) w ∧
      seIteration N M f (gainData N M old) u = .ok (u', dev) ∧
      (HasAngle N.T.nBus M ∨ phaseA (w N.slack) ≠ 0 → ∀ b, b < N.T.nBus → u' b = reported N.T.nBus N.slack M w b) ∧
      ∀ t, 0 ≤ t → (dev ≤ t ↔ ∀ b, b < N.T.nBus → ∀ p, ‖u' b p - u b p‖ ≤ t) := by
  obtain ⟨w, u', h1, h2, h3⟩ := iteration_general hN hM hold hlen hf hex u
  rw [solvedTerms_eq hl] at h1
  exact ⟨w, u', _, h1, h2, h3, fun t ht => deviation_le _ _ _ ht⟩

/-- **C52, when the estimation returns.** The returned voltages are the weighted least squares estimate for the measurements converted at voltages
that differ by at most the tolerance. The estimate is the only one: if the measurements do not determine the voltages, the estimation fails. -/
theorem run_returns_partial {N : SeNet s} (hN : N.Valid) (hl : NoLoops N.T) {M : Measured s} (hM : M.Valid) {old : List (Gain s)}
    (hold : old.length = N.S.colIndicesLu.length) {perms : List (BlockPerm (s.phases + s.phases))} (hlen : perms.length = N.T.nBus)
    (hex : (∀ obs, Observability.check N.T N.radial N.S (flags N.T M) ≠ .returns obs true) ∨
      ∀ f, prefactorize (luPattern N.S) true (gainData N M old) perms = .ok f → f.perturbed = false)
    {tol : ℝ} (htol : 0 ≤ tol) {maxIter : Nat} {start u : Nat → CV s} (h : seVoltages N M tol maxIter old perms start = .ok u) :
    ∃ w prev, IsEstimate N.T.nBus (terms N.T N.y.param M (assumed M prev)) w ∧
      (HasAngle N.T.nBus M ∨ phaseA (w N.slack) ≠ 0 → ∀ b, b < N.T.nBus → u b = reported N.T.nBus N.slack M w b) ∧
      ∀ b, b < N.T.nBus → ∀ p, ‖u b p - prev b p‖ ≤ tol := by
  unfold seVoltages at h
  split at h
  · rename_i obs ill hcheck
    split at h
    · exact absurd h (by simp)
    · rename_i f hf
      have hp : f.perturbed = false ∨ (ill && obs) = false := by
        cases hu : (ill && obs) with
        | false => exact Or.inr rfl
        | true =>
          rw [Bool.and_eq_true] at hu
          rw [hu.1, hu.2] at hf
          exact Or.inl ((hex.resolve_left fun h => h obs (hu.1 ▸ hcheck)) f hf)
      clear hex
      induction maxIter generalizing start with
      | zero => exact absurd h (by simp [seLoop])
      | succ left ih =>
        obtain ⟨w, u', dev, h1, h2, h3, h4⟩ := iteration_estimate_partial hN hl hM hold hlen hf hp start
        unfold seLoop at h
        rw [h2] at h
        simp only at h
        split_ifs at h with hd
        · exact ih h
        · injection h with h
          subst h
          exact ⟨w, start, h1, h3, (h4 tol htol).mp (not_lt.mp hd)⟩
  · exact absurd h (by simp)

/-- **C52, when the estimation gives up.** It reports that it does not converge exactly if in each of the allowed number of iterations some voltage
moved by more than the tolerance. -/
theorem run_diverges {N : SeNet s} (hN : N.Valid) (hl : NoLoops N.T) {M : Measured s} (hM : M.Valid) {use : Bool} {old : List (Gain s)}
    (hold : old.length = N.S.colIndicesLu.length) {perms : List (BlockPerm (s.phases + s.phases))} (hlen : perms.length = N.T.nBus)
    {f : Factors ℂ (s.phases + s.phases)} (hf : prefactorize (luPattern N.S) use (gainData N M old) perms = .ok f)
    (hex : f.perturbed = false ∨ use = false) {tol : ℝ} (htol : 0 ≤ tol) (maxIter : Nat) (start : Nat → CV s) :
    ∃ seq : Nat → Nat → CV s, seq 0 = start ∧
      (∀ k, seIteration N M f (gainData N M old) (seq k) = .ok (seq (k + 1), deviation N.T.nBus (seq k) (seq (k + 1)))) ∧
      ((∀ k, k < maxIter → ∃ b, b < N.T.nBus ∧ ∃ p, tol < ‖seq (k + 1) b p - seq k b p‖) →
        seLoop N M f (gainData N M old) tol maxIter start = .error .diverge) ∧
      ∀ k, k < maxIter → (∀ j, j < k → ∃ b, b < N.T.nBus ∧ ∃ p, tol < ‖seq (j + 1) b p - seq j b p‖) →
        (∀ b, b < N.T.nBus → ∀ p, ‖seq (k + 1) b p - seq k b p‖ ≤ tol) →
        seLoop N M f (gainData N M old) tol maxIter start = .ok (seq (k + 1)) := by
  have step : ∀ u, ∃ u', seIteration N M f (gainData N M old) u = .ok (u', deviation N.T.nBus u u') := fun u => by
    obtain ⟨w, u', _, h2, _⟩ := iteration_general hN hM hold hlen hf hex u
    exact ⟨u', h2⟩
  choose next hnext using step
  have moved : ∀ u u' : Nat → CV s, deviation N.T.nBus u u' > tol ↔ ∃ b, b < N.T.nBus ∧ ∃ p, tol < ‖u' b p - u b p‖ := by
    intro u u'
    rw [gt_iff_lt, ← not_le, deviation_le _ _ _ htol]
    push Not
    rfl
  refine ⟨fun k => next^[k] start, rfl, fun k => ?_, ?_, ?_⟩
  · show seIteration N M f (gainData N M old) (next^[k] start) = .ok (next^[k + 1] start, deviation N.T.nBus (next^[k] start) (next^[k + 1] start))
    rw [Function.iterate_succ_apply']
    exact hnext _
  · induction maxIter generalizing start with
    | zero => exact fun _ => rfl
    | succ left ih =>
      intro h
      unfold seLoop
      rw [hnext]
      simp only
      rw [if_pos ((moved start (next start)).mpr (h 0 (by omega)))]
      exact ih (next start) fun k hk => h (k + 1) (by omega)
  · induction maxIter generalizing start with
    | zero => exact fun k hk => absurd hk (by omega)
    | succ left ih =>
      intro k hk h1 h2
      unfold seLoop
      rw [hnext]
      simp only
      cases k with
      | zero =>
        rw [if_neg]
        · rfl
        · rw [moved]
          push Not
          exact h2
      | succ k =>
        rw [if_pos ((moved start (next start)).mpr (h1 0 (by omega)))]
        exact ih (next start) k (by omega) (fun j hj => h1 (j + 1) (by omega)) h2

end PGM.StateEst
