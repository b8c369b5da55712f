import Verif.StateEst.Normal

/-!
# Solutions of the equations are weighted least squares estimates

Lemmas for C52.
-/

namespace PGM.StateEst

open PGM.YBus PGM.Lu PGM.PowerFlow Matrix

variable {s : Symm}

/-! ## Quadratic functions -/

/-- The prediction is additive. -/
def Term.Additive (t : Term s) : Prop := ∀ a b, t.predict (a + b) = t.predict a + t.predict b

/-- The mixed part. -/
noncomputable def Term.cross (u d : Nat → CV s) (t : Term s) : ℂ :=
  ∑ p, if t.var p = 0 then 0 else star (t.predict d p) * ((t.predict u p - t.target p) / (t.var p : ℝ))

/-- The quadratic part. -/
noncomputable def Term.energy (d : Nat → CV s) (t : Term s) : ℝ := ∑ p, if t.var p = 0 then 0 else ‖t.predict d p‖ ^ 2 / t.var p

theorem norm_add_sq (a b : ℂ) : ‖a + b‖ ^ 2 = ‖a‖ ^ 2 + 2 * (star b * a).re + ‖b‖ ^ 2 := by
  rw [Complex.sq_norm, Complex.sq_norm, Complex.sq_norm, Complex.normSq_add, mul_comm (star b)]
  show _ + 2 * (a * (starRingEnd ℂ) b).re = _ + 2 * (a * (starRingEnd ℂ) b).re + _
  ring

theorem misfit_add (t : Term s) (ht : t.Additive) (u d : Nat → CV s) :
    t.misfit (u + d) = t.misfit u + 2 * (t.cross u d).re + t.energy d := by
  unfold Term.misfit Term.cross Term.energy
  rw [Complex.re_sum, Finset.mul_sum, ← Finset.sum_add_distrib, ← Finset.sum_add_distrib]
  apply Finset.sum_congr rfl
  intro p _
  split_ifs with h
  · simp
  · rw [ht u d, Pi.add_apply, show t.predict u p + t.predict d p - t.target p = (t.predict u p - t.target p) + t.predict d p by ring, norm_add_sq,
      ← mul_div_assoc, Complex.div_ofReal_re]
    ring

theorem energy_nonneg (t : Term s) (ht : ∀ p, 0 ≤ t.var p) (d : Nat → CV s) : 0 ≤ t.energy d := by
  unfold Term.energy
  apply Finset.sum_nonneg
  intro p _
  split_ifs
  · rfl
  · exact div_nonneg (by positivity) (ht p)

theorem energy_zero (t : Term s) (ht : ∀ p, 0 ≤ t.var p) (d : Nat → CV s) (h : t.energy d = 0) (p : Fin s.phases) (hp : t.var p ≠ 0) :
    t.predict d p = 0 := by
  unfold Term.energy at h
  rw [Finset.sum_eq_zero_iff_of_nonneg (by
    intro q _
    split_ifs
    · rfl
    · exact div_nonneg (by positivity) (ht q))] at h
  have := h p (Finset.mem_univ p)
  rw [if_neg hp, div_eq_zero_iff] at this
  rcases this with h | h
  · exact norm_eq_zero.mp (pow_eq_zero_iff (by norm_num) |>.mp h)
  · exact absurd h hp

theorem cross_positive (t : Term s) (ht : ∀ p, 0 < t.var p) (u d : Nat → CV s) : t.cross u d = pair d u t - pairTarget d t := by
  unfold Term.cross pair pairTarget
  rw [sub_eq_add_neg, ← ip_neg, ← ip_add]
  unfold ip dotProduct
  apply Finset.sum_congr rfl
  intro p _
  rw [if_neg (ht p).ne', Pi.add_apply, Pi.neg_apply, weigh_apply, weigh_apply]
  simp only [Pi.star_apply]
  push_cast
  ring

theorem cost_add (l : List (Term s)) (hl : ∀ t ∈ l, t.Additive) (u d : Nat → CV s) :
    cost l (u + d) = cost l u + 2 * ((l.map (Term.cross u d)).sum).re + (l.map (Term.energy d)).sum := by
  induction l with
  | nil => simp [cost]
  | cons t l ih =>
    have h := ih (fun x hx => hl x (by simp [hx]))
    unfold cost at h ⊢
    simp only [List.map_cons, List.sum_cons, Complex.add_re]
    rw [h, misfit_add t (hl t (by simp))]
    ring

theorem energies_nonneg (l : List (Term s)) (hl : ∀ t ∈ l, ∀ p, 0 ≤ t.var p) (d : Nat → CV s) : 0 ≤ (l.map (Term.energy d)).sum := by
  apply List.sum_nonneg
  intro x hx
  obtain ⟨t, ht, rfl⟩ := List.mem_map.mp hx
  exact energy_nonneg t (hl t ht) d

theorem energies_zero (l : List (Term s)) (hl : ∀ t ∈ l, ∀ p, 0 ≤ t.var p) (d : Nat → CV s) (h : (l.map (Term.energy d)).sum = 0) :
    ∀ t ∈ l, t.energy d = 0 := by
  induction l with
  | nil => intro t ht; cases ht
  | cons t l ih =>
    rw [List.map_cons, List.sum_cons] at h
    have h1 := energy_nonneg t (hl t (by simp)) d
    have h2 := energies_nonneg l (fun x hx => hl x (by simp [hx])) d
    intro x hx
    rcases List.mem_cons.mp hx with rfl | hx
    · linarith
    · exact ih (fun x hx => hl x (by simp [hx])) (by linarith) x hx

/-! ## The terms -/

theorem voltage_additive {n : Nat} {M : Measured s} {v : Nat → CV s} : ∀ t ∈ voltageTerms n M v, t.Additive := by
  intro t ht
  unfold voltageTerms at ht
  obtain ⟨b, _, h⟩ := List.mem_filterMap.mp ht
  obtain ⟨m, _, rfl⟩ := Option.map_eq_some_iff.mp h
  intro a c
  rfl

theorem shunt_additive {T : Topo} {P : Param (CM s)} {M : Measured s} {v : Nat → CV s} : ∀ t ∈ shuntTerms T P M v, t.Additive := by
  intro t ht
  unfold shuntTerms at ht
  obtain ⟨b, _, h⟩ := List.mem_filterMap.mp ht
  obtain ⟨m, _, rfl⟩ := Option.map_eq_some_iff.mp h
  intro a c
  show -(P.shunt b.2).mulVec (a b.1 + c b.1) = _
  rw [mulVec_add, neg_add]

theorem sideVoltage_add (a c : Nat → CV s) (o : Option Nat) : sideVoltage (a + c) o = sideVoltage a o + sideVoltage c o := by
  cases o with
  | none => exact (add_zero (0 : CV s)).symm
  | some b => rfl

theorem fromCurrent_add (P : Param (CM s)) (b : (Option Nat × Option Nat) × Nat) (a c : Nat → CV s) :
    fromCurrent P b (a + c) = fromCurrent P b a + fromCurrent P b c := by
  unfold fromCurrent
  simp only [sideVoltage_add, mulVec_add]
  abel

theorem toCurrent_add (P : Param (CM s)) (b : (Option Nat × Option Nat) × Nat) (a c : Nat → CV s) :
    toCurrent P b (a + c) = toCurrent P b a + toCurrent P b c := by
  unfold toCurrent
  simp only [sideVoltage_add, mulVec_add]
  abel

theorem nodalCurrent_add (T : Topo) (P : Param (CM s)) (b : Nat) (a c : Nat → CV s) :
    nodalCurrent T P (a + c) b = nodalCurrent T P a b + nodalCurrent T P c b := by
  unfold nodalCurrent
  simp only [Pi.add_apply, mulVec_add, Finset.sum_add_distrib]

theorem mem_oneBranch {P : Param (CM s)} {M : Measured s} {v : Nat → CV s} {b : (Option Nat × Option Nat) × Nat} {t : Term s}
    (h : t ∈ oneBranch P M v b) : (t.predict = fromCurrent P b ∨ t.predict = toCurrent P b) ∧
      ((∃ side m, M.branchPower side b.2 = some m ∧ t.var = m.vp + m.vq) ∨ ∃ side m, M.branchCurrent side b.2 = some m ∧ t.var = m.vr + m.vi) := by
  unfold oneBranch at h
  simp only [List.mem_append, Option.mem_toList, Option.map_eq_some_iff] at h
  rcases h with ((⟨m, h, rfl⟩ | ⟨m, h, rfl⟩) | ⟨m, h, rfl⟩) | ⟨m, h, rfl⟩
  · exact ⟨Or.inl rfl, Or.inl ⟨0, m, h, rfl⟩⟩
  · exact ⟨Or.inl rfl, Or.inr ⟨0, m, h, rfl⟩⟩
  · exact ⟨Or.inr rfl, Or.inl ⟨1, m, h, rfl⟩⟩
  · exact ⟨Or.inr rfl, Or.inr ⟨1, m, h, rfl⟩⟩

theorem branch_additive {P : Param (CM s)} {M : Measured s} {v : Nat → CV s} {b : (Option Nat × Option Nat) × Nat} :
    ∀ t ∈ oneBranch P M v b, t.Additive := by
  intro t ht a c
  rcases (mem_oneBranch ht).1 with h | h <;> rw [h]
  · exact fromCurrent_add P b a c
  · exact toCurrent_add P b a c

theorem injection_mem {T : Topo} {P : Param (CM s)} {M : Measured s} {v : Nat → CV s} {t : Term s} (ht : t ∈ injectionTerms T P M v) :
    ∃ b m, b < T.nBus ∧ M.injection b = some m ∧ t = ⟨fun u => nodalCurrent T P u b, asCurrent m (v b), m.vp + m.vq⟩ := by
  unfold injectionTerms at ht
  obtain ⟨b, hb, h⟩ := List.mem_filterMap.mp ht
  obtain ⟨m, hm, rfl⟩ := Option.map_eq_some_iff.mp h
  exact ⟨b, m, List.mem_range.mp hb, hm, rfl⟩

/-- The measurements that the equations are about. -/
noncomputable def solvedTerms (T : Topo) (P : Param (CM s)) (M : Measured s) (v : Nat → CV s) : List (Term s) :=
  solvedMain T P M v ++ injectionTerms T P M v

theorem solvedMain_additive {T : Topo} {P : Param (CM s)} {M : Measured s} {v : Nat → CV s} : ∀ t ∈ solvedMain T P M v, t.Additive := by
  intro t ht
  unfold solvedMain at ht
  rcases List.mem_append.mp ht with ht | ht
  · rcases List.mem_append.mp ht with ht | ht
    · exact voltage_additive t ht
    · exact shunt_additive t ht
  · obtain ⟨b, _, h⟩ := List.mem_flatMap.mp ht
    obtain ⟨t', ht', rfl⟩ := List.mem_map.mp h
    exact branch_additive t' ht'

theorem solved_additive {T : Topo} {P : Param (CM s)} {M : Measured s} {v : Nat → CV s} : ∀ t ∈ solvedTerms T P M v, t.Additive := by
  intro t ht
  rcases List.mem_append.mp ht with ht | ht
  · exact solvedMain_additive t ht
  · obtain ⟨b, m, _, _, rfl⟩ := injection_mem ht
    exact fun a c => nodalCurrent_add T P b a c

theorem solvedMain_positive {T : Topo} {P : Param (CM s)} {M : Measured s} (hM : M.Valid) {v : Nat → CV s} :
    ∀ t ∈ solvedMain T P M v, ∀ p, 0 < t.var p := by
  intro t ht p
  unfold solvedMain at ht
  rcases List.mem_append.mp ht with ht | ht
  · rcases List.mem_append.mp ht with ht | ht
    · unfold voltageTerms at ht
      obtain ⟨b, _, h⟩ := List.mem_filterMap.mp ht
      obtain ⟨m, hm, rfl⟩ := Option.map_eq_some_iff.mp h
      exact hM.voltage b m hm
    · unfold shuntTerms at ht
      obtain ⟨b, _, h⟩ := List.mem_filterMap.mp ht
      obtain ⟨m, hm, rfl⟩ := Option.map_eq_some_iff.mp h
      exact hM.shunt b.2 m hm p
  · obtain ⟨b, _, h⟩ := List.mem_flatMap.mp ht
    obtain ⟨t', ht', rfl⟩ := List.mem_map.mp h
    show 0 < t'.var p
    rcases (mem_oneBranch ht').2 with ⟨side, m, hm, e⟩ | ⟨side, m, hm, e⟩
    · rw [e]; exact hM.power side _ m hm p
    · rw [e]; exact hM.current side _ m hm p

theorem solved_nonneg {T : Topo} {P : Param (CM s)} {M : Measured s} (hM : M.Valid) {v : Nat → CV s} :
    ∀ t ∈ solvedTerms T P M v, ∀ p, 0 ≤ t.var p := by
  intro t ht p
  rcases List.mem_append.mp ht with ht | ht
  · exact (solvedMain_positive hM t ht p).le
  · obtain ⟨b, m, _, hm, rfl⟩ := injection_mem ht
    exact hM.injection b m hm p

theorem solvedMain_pair (T : Topo) (P : Param (CM s)) (M : Measured s) (v w u : Nat → CV s) :
    ((solvedMain T P M v).map (pair w u)).sum = ((mainTerms T P M v).map (pair w u)).sum := by
  unfold solvedMain mainTerms branchTerms
  simp only [List.map_append, List.sum_append, sum_flatMap_map, List.map_map]
  rfl

/-! ## The equations -/

/-- `Q`. -/
noncomputable def qAt (T : Topo) (P : Param (CM s)) (M : Measured s) (r c : Nat) : CM s := if (M.injection r).isSome then nodal T P r c else 0

/-- `R`. -/
noncomputable def rAt (M : Measured s) (r : Nat) : CM s :=
  match M.injection r with
  | some m => Matrix.diagonal fun p => ((-(m.vp p + m.vq p) : ℝ) : ℂ)
  | none => Matrix.diagonal fun _ => -1

/-- The equations of an iteration, for the voltages `u` and the multipliers `φ`. -/
structure Equations (T : Topo) (P : Param (CM s)) (M : Measured s) (v u φ : Nat → CV s) : Prop where
  first : ∀ r, r < T.nBus → ∑ c ∈ Finset.range T.nBus, (gAt T P M r c).mulVec (u c) +
    ∑ c ∈ Finset.range T.nBus, (qAt T P M c r).conjTranspose.mulVec (φ c) = etaAt T P M v r
  second : ∀ r, r < T.nBus → ∑ c ∈ Finset.range T.nBus, (qAt T P M r c).mulVec (u c) + (rAt M r).mulVec (φ r) = rhsInjection M v r

theorem q_current (T : Topo) (P : Param (CM s)) (M : Measured s) (u : Nat → CV s) (r : Nat) :
    ∑ c ∈ Finset.range T.nBus, (qAt T P M r c).mulVec (u c) = if (M.injection r).isSome then nodalCurrent T P u r else 0 := by
  unfold qAt nodalCurrent
  split_ifs
  · rfl
  · simp

theorem qh_tested (T : Topo) (P : Param (CM s)) (M : Measured s) (w φ : Nat → CV s) :
    ∑ r ∈ Finset.range T.nBus, ip (w r) (∑ c ∈ Finset.range T.nBus, (qAt T P M c r).conjTranspose.mulVec (φ c)) =
      ∑ c ∈ Finset.range T.nBus, ip (if (M.injection c).isSome then nodalCurrent T P w c else 0) (φ c) := by
  have h1 : ∀ r ∈ Finset.range T.nBus, ip (w r) (∑ c ∈ Finset.range T.nBus, (qAt T P M c r).conjTranspose.mulVec (φ c)) =
      ∑ c ∈ Finset.range T.nBus, ip ((qAt T P M c r).mulVec (w r)) (φ c) := by
    intro r _
    rw [ip_sum]
    exact Finset.sum_congr rfl fun c _ => ip_adjoint _ _ _
  rw [Finset.sum_congr rfl h1, Finset.sum_comm]
  apply Finset.sum_congr rfl
  intro c _
  rw [← q_current]
  have : ∀ (l : Finset Nat) (f : Nat → CV s), ip (∑ x ∈ l, f x) (φ c) = ∑ x ∈ l, ip (f x) (φ c) := by
    intro l f
    unfold ip
    rw [star_sum, sum_dotProduct]
  rw [this]

/-- What the second half of the equations says about a measured injection. -/
theorem injection_eq {T : Topo} {P : Param (CM s)} {M : Measured s} {v u φ : Nat → CV s} (h : Equations T P M v u φ) {b : Nat}
    (hb : b < T.nBus) {m : PowerM s} (hm : M.injection b = some m) (p : Fin s.phases) :
    nodalCurrent T P u b p - asCurrent m (v b) p = ((m.vp p + m.vq p : ℝ) : ℂ) * φ b p := by
  have h2 := congrFun (h.second b hb) p
  rw [q_current, hm, Option.isSome_some, if_pos rfl, Pi.add_apply] at h2
  simp only [rAt, rhsInjection, hm] at h2
  rw [mulVec_diagonal] at h2
  have e : (powerToCurrent m (v b)).value = asCurrent m (v b) := rfl
  rw [e] at h2
  rw [← h2]
  push_cast
  ring

/-- The first half, tested against arbitrary voltages. -/
theorem stationary {T : Topo} (hv : T.Valid) {S : YBus.Structure} (hS : build T = some S) {P : Param (CM s)} {M : Measured s}
    {v u φ : Nat → CV s} (h : Equations T P M v u φ) (w : Nat → CV s) :
    ((solvedMain T P M v).map (pair w u)).sum - ((solvedMain T P M v).map (pairTarget w)).sum +
      ∑ c ∈ Finset.range T.nBus, ip (if (M.injection c).isSome then nodalCurrent T P w c else 0) (φ c) = 0 := by
  rw [solvedMain_pair, ← gain_tested hv hS P M v w u, ← rhs_tested hv P M v w, ← qh_tested]
  have : ∀ r ∈ Finset.range T.nBus, ip (w r) (etaAt T P M v r) =
      ip (w r) (∑ c ∈ Finset.range T.nBus, (gAt T P M r c).mulVec (u c)) +
      ip (w r) (∑ c ∈ Finset.range T.nBus, (qAt T P M c r).conjTranspose.mulVec (φ c)) := by
    intro r hr
    rw [← h.first r (Finset.mem_range.mp hr), ip_add]
  rw [Finset.sum_congr rfl this, Finset.sum_add_distrib]
  ring

theorem ip_self (a : CV s) (h : ip a a = 0) : a = 0 := by
  unfold ip dotProduct at h
  have h1 : ∀ p, star a p * a p = ((Complex.normSq (a p) : ℝ) : ℂ) := fun p => by
    rw [Complex.normSq_eq_conj_mul_self]
    rfl
  simp only [h1] at h
  rw [← Complex.ofReal_sum, Complex.ofReal_eq_zero, Finset.sum_eq_zero_iff_of_nonneg fun p _ => Complex.normSq_nonneg _] at h
  funext p
  exact Complex.normSq_eq_zero.mp (h p (Finset.mem_univ p))

/-- **A solution of the equations is the weighted least squares estimate**, if the equations have only one solution. -/
theorem estimate_of_equations {T : Topo} (hv : T.Valid) {S : YBus.Structure} (hS : build T = some S) {P : Param (CM s)} {M : Measured s}
    (hM : M.Valid) {v u φ : Nat → CV s} (h : Equations T P M v u φ)
    (huniq : ∀ u' φ', Equations T P M v u' φ' → ∀ b, b < T.nBus → u' b = u b) : IsEstimate T.nBus (solvedTerms T P M v) u := by
  have hfeas : Feasible (solvedTerms T P M v) u := by
    intro t ht p hp
    rcases List.mem_append.mp ht with ht | ht
    · exact absurd hp (solvedMain_positive hM t ht p).ne'
    · obtain ⟨b, m, hb, hm, rfl⟩ := injection_mem ht
      have h1 := injection_eq h hb hm p
      have h2 : m.vp p + m.vq p = 0 := hp
      rw [h2, Complex.ofReal_zero, zero_mul, sub_eq_zero] at h1
      exact h1
  refine ⟨hfeas, fun u' hu' => ?_⟩
  obtain ⟨d, rfl⟩ : ∃ d, u' = u + d := ⟨u' - u, by abel⟩
  -- the differences meet the constraints with value zero
  have hd0 : ∀ b m, b < T.nBus → M.injection b = some m → ∀ p, m.vp p + m.vq p = 0 → nodalCurrent T P d b p = 0 := by
    intro b m hb hm p hp
    have ht : (⟨fun u => nodalCurrent T P u b, asCurrent m (v b), m.vp + m.vq⟩ : Term s) ∈ solvedTerms T P M v := by
      apply List.mem_append_right
      unfold injectionTerms
      exact List.mem_filterMap.mpr ⟨b, List.mem_range.mpr hb, by rw [hm]; rfl⟩
    have h1 := hu' _ ht p hp
    have h2 := hfeas _ ht p hp
    have h3 := congrFun (nodalCurrent_add T P b u d) p
    rw [Pi.add_apply] at h3
    have h1' : nodalCurrent T P (u + d) b p = asCurrent m (v b) p := h1
    have h2' : nodalCurrent T P u b p = asCurrent m (v b) p := h2
    rw [h1', h2'] at h3
    exact (left_eq_add.mp h3)
  have hcross : ((solvedTerms T P M v).map (Term.cross u d)).sum = 0 := by
    rw [← stationary hv hS h d]
    unfold solvedTerms
    rw [List.map_append, List.sum_append]
    congr 1
    · have : ∀ l : List (Term s), (∀ t ∈ l, ∀ p, 0 < t.var p) →
          (l.map (Term.cross u d)).sum = (l.map (pair d u)).sum - (l.map (pairTarget d)).sum := by
        intro l hl
        induction l with
        | nil => simp
        | cons t l ih =>
          simp only [List.map_cons, List.sum_cons]
          rw [ih fun x hx => hl x (by simp [hx]), cross_positive t (hl t (by simp))]
          ring
      exact this _ (solvedMain_positive hM)
    · unfold injectionTerms
      rw [sum_filterMap, sum_range_list]
      congr 1
      apply List.map_congr_left
      intro b hb
      have hb := List.mem_range.mp hb
      cases hm : M.injection b with
      | none => simp [zero_ip]
      | some m =>
        simp only [Option.elim, Option.isSome_some, if_true]
        unfold Term.cross ip dotProduct
        apply Finset.sum_congr rfl
        intro p _
        simp only [Pi.add_apply, Pi.star_apply]
        split_ifs with hp
        · rw [hd0 b m hb hm p hp]; simp
        · rw [injection_eq h hb hm p, mul_div_cancel_left₀]
          exact_mod_cast hp
  have hcost := cost_add (solvedTerms T P M v) solved_additive u d
  rw [hcross, Complex.zero_re, mul_zero, add_zero] at hcost
  have hpos := energies_nonneg (solvedTerms T P M v) (solved_nonneg hM) d
  refine ⟨by linarith, fun heq b hb => ?_⟩
  have hz := energies_zero _ (solved_nonneg hM) d (by linarith)
  -- nothing that is measured changes
  have hmain : ∀ t ∈ solvedMain T P M v, t.predict d = 0 := by
    intro t ht
    funext p
    exact energy_zero t (fun p => (solvedMain_positive hM t ht p).le) d (hz t (List.mem_append_left _ ht)) p (solvedMain_positive hM t ht p).ne'
  have hinj : ∀ b, b < T.nBus → (M.injection b).isSome → nodalCurrent T P d b = 0 := by
    intro b hb hs
    obtain ⟨m, hm⟩ := Option.isSome_iff_exists.mp hs
    funext p
    by_cases hp : m.vp p + m.vq p = 0
    · exact hd0 b m hb hm p hp
    · have ht : (⟨fun u => nodalCurrent T P u b, asCurrent m (v b), m.vp + m.vq⟩ : Term s) ∈ solvedTerms T P M v := by
        apply List.mem_append_right
        unfold injectionTerms
        exact List.mem_filterMap.mpr ⟨b, List.mem_range.mpr hb, by rw [hm]; rfl⟩
      exact energy_zero _ (solved_nonneg hM _ ht) d (hz _ ht) p hp
  have hG : ∀ r, r < T.nBus → ∑ c ∈ Finset.range T.nBus, (gAt T P M r c).mulVec (d c) = 0 := by
    intro r hr
    apply ip_self
    have h1 := gain_tested hv hS P M v (Function.update (fun _ => 0) r (∑ c ∈ Finset.range T.nBus, (gAt T P M r c).mulVec (d c))) d
    rw [Finset.sum_eq_single_of_mem r (Finset.mem_range.mpr hr), Function.update_self, ← solvedMain_pair] at h1
    · rw [h1]
      apply List.sum_eq_zero
      intro x hx
      obtain ⟨t, ht, rfl⟩ := List.mem_map.mp hx
      unfold pair
      rw [hmain t ht]
      unfold weigh
      rw [mulVec_zero, ip_zero]
    · intro c _ hc
      rw [Function.update_of_ne hc, zero_ip]
  refine huniq (u + d) φ ⟨fun r hr => ?_, fun r hr => ?_⟩ b hb
  · rw [← h.first r hr]
    congr 1
    simp only [Pi.add_apply, mulVec_add, Finset.sum_add_distrib]
    rw [hG r hr, add_zero]
  · rw [← h.second r hr]
    congr 1
    rw [q_current, q_current]
    split_ifs with hs
    · rw [nodalCurrent_add, hinj r hr hs, add_zero]
    · rfl

end PGM.StateEst
