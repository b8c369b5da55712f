import Verif.StateEst.Props
import Mathlib.Tactic.FieldSimp

/-!
# The normalisation of the variances

Model of `MeasuredValues::normalize_variance`, `P/math_solver/measured_values.hpp` lines 547-592: all variances are divided by the smallest one that
is not zero, before anything else uses them. C52 is stated in terms of the variances of the sensors, so the estimate must not depend on it.
-/

namespace PGM.StateEst

open PGM.YBus PGM.Lu PGM.PowerFlow

variable {s : Symm}

/-! ## Model -/

/-- The variances that the loops of lines 560-581 visit: those of the measured buses, the measured injections, the measured shunts and the measured
branches. The code visits its flat vectors, the model all objects. -/
noncomputable def variances (T : Topo) (M : Measured s) : List ℝ :=
  ((List.range T.nBus).filterMap fun b => (M.voltage b).map VoltM.var) ++
  ((List.range T.nBus).filterMap M.injection ++ (List.range T.shuntBus.length).filterMap M.shunt ++
    (List.range T.branches.length).filterMap (M.branchPower 0) ++ (List.range T.branches.length).filterMap (M.branchPower 1)).flatMap
      (fun m => (List.finRange s.phases).map fun p => m.vp p + m.vq p) ++
  ((List.range T.branches.length).filterMap (M.branchCurrent 0) ++ (List.range T.branches.length).filterMap (M.branchCurrent 1)).flatMap
      (fun m => (List.finRange s.phases).map fun p => m.vr p + m.vi p)

/-- `unconstrained_min`, lines 554-559; `none` is infinity. -/
noncomputable def unconstrainedMin (m : Option ℝ) (v : ℝ) : Option ℝ :=
  if v ≠ 0 then some (match m with | none => v | some m => min m v) else m

/-- `min_var`, lines 553-581. -/
noncomputable def minVar (T : Topo) (M : Measured s) : Option ℝ := (variances T M).foldl unconstrainedMin none

/-- The scaling of lines 585-592. -/
noncomputable def scaleVar (c : ℝ) (M : Measured s) : Measured s where
  voltage b := (M.voltage b).map fun m => { m with var := m.var * c }
  injection b := (M.injection b).map fun m => { m with vp := fun p => m.vp p * c, vq := fun p => m.vq p * c }
  shunt b := (M.shunt b).map fun m => { m with vp := fun p => m.vp p * c, vq := fun p => m.vq p * c }
  branchPower side b := (M.branchPower side b).map fun m => { m with vp := fun p => m.vp p * c, vq := fun p => m.vq p * c }
  branchCurrent side b := (M.branchCurrent side b).map fun m => { m with vr := fun p => m.vr p * c, vi := fun p => m.vi p * c }

/-- `normalize_variance`, lines 552-592. One divided by infinity is zero. -/
noncomputable def normalizeVariance (T : Topo) (M : Measured s) : Measured s :=
  match minVar T M with
  | none => scaleVar 0 M
  | some m => scaleVar (1 / m) M

/-! ## Lemmas -/

theorem foldMin_some (l : List ℝ) (m : ℝ) : ∃ r, l.foldl unconstrainedMin (some m) = some r ∧ (r = m ∨ r ∈ l ∧ r ≠ 0) ∧ r ≤ m ∧ ∀ v ∈ l, v ≠ 0 → r ≤ v := by
  induction l generalizing m with
  | nil => exact ⟨m, rfl, Or.inl rfl, le_refl _, by simp⟩
  | cons a l ih =>
    rw [List.foldl_cons]
    by_cases ha : a = 0
    · have : unconstrainedMin (some m) a = some m := by unfold unconstrainedMin; rw [if_neg (by simpa using ha)]
      rw [this]
      obtain ⟨r, h1, h2, h3, h4⟩ := ih m
      refine ⟨r, h1, h2.imp_right fun h => ⟨List.mem_cons_of_mem _ h.1, h.2⟩, h3, fun v hv hv0 => ?_⟩
      rcases List.mem_cons.mp hv with rfl | hv
      · exact absurd ha hv0
      · exact h4 v hv hv0
    · have : unconstrainedMin (some m) a = some (min m a) := by unfold unconstrainedMin; rw [if_pos ha]
      rw [this]
      obtain ⟨r, h1, h2, h3, h4⟩ := ih (min m a)
      refine ⟨r, h1, ?_, h3.trans (min_le_left _ _), fun v hv hv0 => ?_⟩
      · rcases h2 with h2 | h2
        · rcases min_choice m a with h | h
          · exact Or.inl (h2.trans h)
          · exact Or.inr ⟨by rw [h2, h]; exact List.mem_cons_self, by rw [h2, h]; exact ha⟩
        · exact Or.inr ⟨List.mem_cons_of_mem _ h2.1, h2.2⟩
      · rcases List.mem_cons.mp hv with rfl | hv
        · exact h3.trans (min_le_right _ _)
        · exact h4 v hv hv0

theorem foldMin_none (l : List ℝ) : (l.foldl unconstrainedMin none = none ∧ ∀ v ∈ l, v = 0) ∨
    ∃ r, l.foldl unconstrainedMin none = some r ∧ r ∈ l ∧ r ≠ 0 ∧ ∀ v ∈ l, v ≠ 0 → r ≤ v := by
  induction l with
  | nil => exact Or.inl ⟨rfl, by simp⟩
  | cons a l ih =>
    rw [List.foldl_cons]
    by_cases ha : a = 0
    · have : unconstrainedMin none a = none := by unfold unconstrainedMin; rw [if_neg (by simpa using ha)]
      rw [this]
      rcases ih with ⟨h1, h2⟩ | ⟨r, h1, h2, h3, h4⟩
      · exact Or.inl ⟨h1, fun v hv => by
          rcases List.mem_cons.mp hv with rfl | hv
          · exact ha
          · exact h2 v hv⟩
      · exact Or.inr ⟨r, h1, List.mem_cons_of_mem _ h2, h3, fun v hv hv0 => by
          rcases List.mem_cons.mp hv with rfl | hv
          · exact absurd ha hv0
          · exact h4 v hv hv0⟩
    · have : unconstrainedMin none a = some a := by unfold unconstrainedMin; rw [if_pos ha]
      rw [this]
      obtain ⟨r, h1, h2, h3, h4⟩ := foldMin_some l a
      refine Or.inr ⟨r, h1, ?_, ?_, fun v hv hv0 => ?_⟩
      · rcases h2 with rfl | h2
        · exact List.mem_cons_self
        · exact List.mem_cons_of_mem _ h2.1
      · rcases h2 with rfl | h2
        · exact ha
        · exact h2.2
      · rcases List.mem_cons.mp hv with rfl | hv
        · exact h3
        · exact h4 v hv hv0

/-- A measurement with another variance. -/
noncomputable def Term.reweighted (c : ℝ) (t : Term s) : Term s := { t with var := fun p => t.var p * c }

theorem add_scaled {n : Nat} (f g : Fin n → ℝ) (c : ℝ) : ((fun p => f p * c) + fun p => g p * c) = fun p => (f + g) p * c := by
  funext p
  simp only [Pi.add_apply]
  ring

theorem scaleVar_oneBranch (c : ℝ) (P : Param (CM s)) (M : Measured s) (v : Nat → CV s) (b : (Option Nat × Option Nat) × Nat) :
    oneBranch P (scaleVar c M) v b = (oneBranch P M v b).map (Term.reweighted c) := by
  unfold oneBranch
  simp only [List.map_append]
  refine congrArg₂ _ (congrArg₂ _ (congrArg₂ _ ?_ ?_) ?_) ?_
  · cases h : M.branchPower 0 b.2 <;> simp only [scaleVar, h, Option.map_none, Option.map_some, Option.toList_none, Option.toList_some, List.map_nil,
      List.map_cons, Term.reweighted, add_scaled]
    rfl
  · cases h : M.branchCurrent 0 b.2 <;> simp only [scaleVar, h, Option.map_none, Option.map_some, Option.toList_none, Option.toList_some, List.map_nil,
      List.map_cons, Term.reweighted, add_scaled]
    rfl
  · cases h : M.branchPower 1 b.2 <;> simp only [scaleVar, h, Option.map_none, Option.map_some, Option.toList_none, Option.toList_some, List.map_nil,
      List.map_cons, Term.reweighted, add_scaled]
    rfl
  · cases h : M.branchCurrent 1 b.2 <;> simp only [scaleVar, h, Option.map_none, Option.map_some, Option.toList_none, Option.toList_some, List.map_nil,
      List.map_cons, Term.reweighted, add_scaled]
    rfl

theorem scaleVar_terms (c : ℝ) (T : Topo) (P : Param (CM s)) (M : Measured s) (v : Nat → CV s) :
    terms T P (scaleVar c M) v = (terms T P M v).map (Term.reweighted c) := by
  unfold terms
  simp only [List.map_append]
  refine congrArg₂ _ (congrArg₂ _ (congrArg₂ _ ?_ ?_) ?_) ?_
  · unfold voltageTerms
    rw [List.map_filterMap]
    apply List.filterMap_congr
    intro b _
    cases h : M.voltage b <;> simp only [scaleVar, h, Option.map_none, Option.map_some, Term.reweighted]
  · unfold shuntTerms
    rw [List.map_filterMap]
    apply List.filterMap_congr
    intro b _
    cases h : M.shunt b.2 <;> simp only [scaleVar, h, Option.map_none, Option.map_some, Term.reweighted, add_scaled]
    rfl
  · unfold branchTerms
    rw [List.map_flatMap]
    exact List.flatMap_congr fun b _ => scaleVar_oneBranch c P M v b
  · unfold injectionTerms
    rw [List.map_filterMap]
    apply List.filterMap_congr
    intro b _
    cases h : M.injection b <;> simp only [scaleVar, h, Option.map_none, Option.map_some, Term.reweighted, add_scaled]
    rfl

theorem reweighted_misfit {c : ℝ} (hc : 0 < c) (t : Term s) (u : Nat → CV s) : (t.reweighted c).misfit u = 1 / c * t.misfit u := by
  unfold Term.misfit Term.reweighted
  rw [Finset.mul_sum]
  refine Finset.sum_congr rfl fun p _ => ?_
  by_cases h : t.var p = 0
  · simp [h]
  · rw [if_neg h, if_neg (mul_ne_zero h hc.ne')]
    field_simp

theorem reweighted_cost {c : ℝ} (hc : 0 < c) (l : List (Term s)) (u : Nat → CV s) : cost (l.map (Term.reweighted c)) u = 1 / c * cost l u := by
  unfold cost
  rw [List.map_map, ← List.sum_map_mul_left]
  exact congrArg _ (List.map_congr_left fun t _ => reweighted_misfit hc t u)

theorem reweighted_feasible {c : ℝ} (hc : 0 < c) (l : List (Term s)) (u : Nat → CV s) : Feasible (l.map (Term.reweighted c)) u ↔ Feasible l u := by
  unfold Feasible
  simp only [List.forall_mem_map]
  refine forall₂_congr fun t _ => forall_congr' fun p => ?_
  show (t.var p * c = 0 → _) ↔ _
  rw [mul_eq_zero, or_iff_left hc.ne']
  rfl

theorem reweighted_estimate {c : ℝ} (hc : 0 < c) (n : Nat) (l : List (Term s)) (u : Nat → CV s) :
    IsEstimate n (l.map (Term.reweighted c)) u ↔ IsEstimate n l u := by
  unfold IsEstimate
  have h : (0 : ℝ) < 1 / c := by positivity
  simp only [reweighted_feasible hc, reweighted_cost hc, mul_le_mul_iff_right₀ h, mul_right_inj' h.ne']

theorem scaleVar_assumed (c : ℝ) (M : Measured s) (u : Nat → CV s) : assumed (scaleVar c M) u = assumed M u := by
  funext b
  unfold assumed scaleVar
  cases h : M.voltage b with
  | none => simp [h]
  | some m =>
    obtain ⟨v | m, var⟩ := m <;> simp [h]

theorem scaleVar_hasAngle (c : ℝ) (n : Nat) (M : Measured s) : HasAngle n (scaleVar c M) ↔ HasAngle n M := by
  unfold HasAngle
  refine exists_congr fun b => and_congr_right fun _ => ⟨?_, ?_⟩
  · rintro ⟨u, var, h⟩
    simp only [scaleVar, Option.map_eq_some_iff] at h
    obtain ⟨m, h1, h2⟩ := h
    obtain ⟨v, var'⟩ := m
    injection h2 with h2 _
    exact ⟨u, var', by rw [h1, ← h2]⟩
  · rintro ⟨u, var, h⟩
    exact ⟨u, var * c, by simp [scaleVar, h]⟩

theorem scaleVar_reported (c : ℝ) (n slack : Nat) (M : Measured s) (w : Nat → CV s) : reported n slack (scaleVar c M) w = reported n slack M w := by
  funext b
  unfold reported
  by_cases h : HasAngle n M
  · rw [if_pos h, if_pos ((scaleVar_hasAngle c n M).mpr h)]
  · rw [if_neg h, if_neg fun h' => h ((scaleVar_hasAngle c n M).mp h')]

theorem scaleVar_valid {c : ℝ} (hc : 0 < c) {M : Measured s} (hM : M.Valid) : (scaleVar c M).Valid where
  voltage b m h := by
    simp only [scaleVar, Option.map_eq_some_iff] at h
    obtain ⟨m', h1, rfl⟩ := h
    exact mul_pos (hM.voltage b m' h1) hc
  injection b m h p := by
    simp only [scaleVar, Option.map_eq_some_iff] at h
    obtain ⟨m', h1, rfl⟩ := h
    show 0 ≤ m'.vp p * c + m'.vq p * c
    rw [← add_mul]
    exact mul_nonneg (hM.injection b m' h1 p) hc.le
  shunt b m h p := by
    simp only [scaleVar, Option.map_eq_some_iff] at h
    obtain ⟨m', h1, rfl⟩ := h
    show 0 < m'.vp p * c + m'.vq p * c
    rw [← add_mul]
    exact mul_pos (hM.shunt b m' h1 p) hc
  power side b m h p := by
    simp only [scaleVar, Option.map_eq_some_iff] at h
    obtain ⟨m', h1, rfl⟩ := h
    show 0 < m'.vp p * c + m'.vq p * c
    rw [← add_mul]
    exact mul_pos (hM.power side b m' h1 p) hc
  current side b m h p := by
    simp only [scaleVar, Option.map_eq_some_iff] at h
    obtain ⟨m', h1, rfl⟩ := h
    show 0 < m'.vr p * c + m'.vi p * c
    rw [← add_mul]
    exact mul_pos (hM.current side b m' h1 p) hc

theorem variances_nonneg (T : Topo) {M : Measured s} (hM : M.Valid) : ∀ v ∈ variances T M, 0 ≤ v := by
  intro v hv
  unfold variances at hv
  simp only [List.mem_append, List.mem_filterMap, List.mem_flatMap, List.mem_map, Option.map_eq_some_iff] at hv
  rcases hv with (⟨b, _, m, hm, rfl⟩ | ⟨m, (((⟨b, _, hm⟩ | ⟨b, _, hm⟩) | ⟨b, _, hm⟩) | ⟨b, _, hm⟩), p, _, rfl⟩) | ⟨m, (⟨b, _, hm⟩ | ⟨b, _, hm⟩), p, _, rfl⟩
  · exact (hM.voltage b m hm).le
  · exact hM.injection b m hm p
  · exact (hM.shunt b m hm p).le
  · exact (hM.power 0 b m hm p).le
  · exact (hM.power 1 b m hm p).le
  · exact (hM.current 0 b m hm p).le
  · exact (hM.current 1 b m hm p).le

/-- With a measured voltage the variances are scaled by a positive factor. -/
theorem normalize_scales {T : Topo} {M : Measured s} (hM : M.Valid) (hu : ∃ b, b < T.nBus ∧ (M.voltage b).isSome) :
    ∃ m ∈ variances T M, 0 < m ∧ (∀ v ∈ variances T M, v ≠ 0 → m ≤ v) ∧ normalizeVariance T M = scaleVar (1 / m) M := by
  unfold normalizeVariance minVar
  rcases foldMin_none (variances T M) with ⟨_, h⟩ | ⟨m, h1, h2, h3, h4⟩
  · exfalso
    obtain ⟨b, hb, hm⟩ := hu
    obtain ⟨m, hm⟩ := Option.isSome_iff_exists.mp hm
    have : m.var ∈ variances T M := by
      unfold variances
      refine List.mem_append_left _ (List.mem_append_left _ (List.mem_filterMap.mpr ⟨b, List.mem_range.mpr hb, ?_⟩))
      rw [hm]
      rfl
    exact (hM.voltage b m hm).ne' (h _ this)
  · exact ⟨m, h2, lt_of_le_of_ne (variances_nonneg T hM m h2) (Ne.symm h3), h4, by rw [h1]⟩

/-! ## Theorems -/

/-- **The normalisation does not change what is estimated.** With at least one measured voltage, without which the estimation is refused, the weighted
least squares estimates for the normalised variances are those for the variances of the sensors. -/
theorem normalize_estimate {T : Topo} {M : Measured s} (hM : M.Valid) (hu : ∃ b, b < T.nBus ∧ (M.voltage b).isSome) (P : Param (CM s))
    (v u : Nat → CV s) : (normalizeVariance T M).Valid ∧ (IsEstimate T.nBus (terms T P (normalizeVariance T M) v) u ↔ IsEstimate T.nBus (terms T P M v) u) := by
  obtain ⟨m, _, hm, _, e⟩ := normalize_scales hM hu
  have hc : 0 < 1 / m := by positivity
  rw [e]
  exact ⟨scaleVar_valid hc hM, by rw [scaleVar_terms, reweighted_estimate hc]⟩

/-- **The smallest variance becomes one**, so the biggest weighting factor is one; variances of zero stay constraints. -/
theorem normalize_smallest {T : Topo} {M : Measured s} (hM : M.Valid) (hu : ∃ b, b < T.nBus ∧ (M.voltage b).isSome) (P : Param (CM s)) (v : Nat → CV s) :
    ∃ m ∈ variances T M, 0 < m ∧ (∀ v ∈ variances T M, v ≠ 0 → 1 ≤ v * (1 / m)) ∧
      terms T P (normalizeVariance T M) v = (terms T P M v).map fun t => { t with var := fun p => t.var p * (1 / m) } := by
  obtain ⟨m, h1, hm, h2, e⟩ := normalize_scales hM hu
  refine ⟨m, h1, hm, fun v hv h0 => ?_, ?_⟩
  · rw [mul_one_div, le_div_iff₀ hm, one_mul]
    exact h2 v hv h0
  · rw [e, scaleVar_terms]
    rfl

/-- **C52, in terms of the variances of the sensors.** The voltages returned for the normalised measurements are the weighted least squares estimate
for the measurements themselves. -/
theorem run_normalized_partial {N : SeNet s} (hN : N.Valid) (hl : NoLoops N.T) {M : Measured s} (hM : M.Valid) (hu : ∃ b, b < N.T.nBus ∧ (M.voltage b).isSome)
    {old : List (Gain s)} (hold : old.length = N.S.colIndicesLu.length) {perms : List (BlockPerm (s.phases + s.phases))} (hlen : perms.length = N.T.nBus)
    (hex : (∀ obs, Observability.check N.T N.radial N.S (flags N.T (normalizeVariance N.T M)) ≠ .returns obs true) ∨
      ∀ f, prefactorize (luPattern N.S) true (gainData N (normalizeVariance N.T M) old) perms = .ok f → f.perturbed = false)
    {tol : ℝ} (htol : 0 ≤ tol) {maxIter : Nat} {start u : Nat → CV s} (h : seVoltages N (normalizeVariance N.T M) tol maxIter old perms start = .ok u) :
    ∃ w prev, IsEstimate N.T.nBus (terms N.T N.y.param M (assumed M prev)) w ∧
      (HasAngle N.T.nBus M ∨ phaseA (w N.slack) ≠ 0 → ∀ b, b < N.T.nBus → u b = reported N.T.nBus N.slack M w b) ∧
      ∀ b, b < N.T.nBus → ∀ p, ‖u b p - prev b p‖ ≤ tol := by
  obtain ⟨m, _, hm, _, e⟩ := normalize_scales hM hu
  have hc : 0 < 1 / m := by positivity
  obtain ⟨w, prev, h1, h2, h3⟩ := run_returns_partial hN hl (normalize_estimate hM hu N.y.param start start).1 hold hlen hex htol h
  rw [e, scaleVar_assumed, scaleVar_terms, reweighted_estimate hc] at h1
  rw [e] at h2
  simp only [scaleVar_reported, scaleVar_hasAngle] at h2
  exact ⟨w, prev, h1, h2, h3⟩

end PGM.StateEst
