import Verif.Lu.Dense
import Mathlib.Tactic.Ring
import Mathlib.Tactic.FieldSimp
import Mathlib.Tactic.LinearCombination

/-!
# Lemmas about the dense factorisation
-/

namespace PGM.Lu

variable {K : Type} [RCLike K] {n : Nat}

/-! ## Loops over all indices -/

theorem finRange_take_succ (k : Fin n) : (List.finRange n).take (k + 1) = (List.finRange n).take k ++ [k] := by
  rw [List.take_succ_eq_append_getElem (by simp [k.isLt])]
  simp

theorem foldl_take_induct {σ : Type} (f : σ → Fin n → σ) (s : σ) (P : Nat → σ → Prop) (h0 : P 0 s)
    (hs : ∀ (k : Fin n) (x : σ), P k x → P (k + 1) (f x k)) : P n ((List.finRange n).foldl f s) := by
  have : ∀ m, m ≤ n → P m (((List.finRange n).take m).foldl f s) := by
    intro m
    induction m with
    | zero => intro _; simpa using h0
    | succ m ih =>
      intro hm
      have e := finRange_take_succ (⟨m, hm⟩ : Fin n)
      simp only at e
      rw [e, List.foldl_append]
      exact hs ⟨m, hm⟩ _ (ih (by omega))
  have h := this n (Nat.le_refl n)
  rwa [List.take_of_length_le (by simp)] at h

theorem foldl_mul_prod {G : Type} [Monoid G] {α : Type} (l : List α) (t : α → G) (g : G) :
    l.foldl (fun p k => p * t k) g = g * (l.map t).prod := by
  induction l generalizing g with
  | nil => simp
  | cons a l ih => rw [List.foldl_cons, ih, List.map_cons, List.prod_cons, mul_assoc]

/-! ## The pivot search -/

theorem biggest_spec (A : Blk K n) (k : Fin n) :
    k ≤ (biggest A k).1 ∧ k ≤ (biggest A k).2 ∧
      ∀ r c, k ≤ r → k ≤ c → ‖A r c‖ ≤ ‖A (biggest A k).1 (biggest A k).2‖ := by
  unfold biggest
  have key : ∀ (l : List (Fin n × Fin n)) (b : Fin n × Fin n), (∀ x ∈ l, k ≤ x.1 ∧ k ≤ x.2) → k ≤ b.1 → k ≤ b.2 →
      (let m := l.foldl (fun best x => if ‖A best.1 best.2‖ ^ 2 < ‖A x.1 x.2‖ ^ 2 then x else best) b
       k ≤ m.1 ∧ k ≤ m.2 ∧ ‖A b.1 b.2‖ ≤ ‖A m.1 m.2‖ ∧ ∀ x ∈ l, ‖A x.1 x.2‖ ≤ ‖A m.1 m.2‖) := by
    intro l
    induction l with
    | nil => intro b _ h1 h2; simp [h1, h2]
    | cons a l ih =>
      intro b hl h1 h2
      have ha := hl a (by simp)
      have hl' := fun x hx => hl x (List.mem_cons_of_mem a hx)
      simp only [List.foldl_cons]
      by_cases hlt : ‖A b.1 b.2‖ ^ 2 < ‖A a.1 a.2‖ ^ 2
      · rw [if_pos hlt]
        obtain ⟨i1, i2, i3, i4⟩ := ih a hl' ha.1 ha.2
        have hba : ‖A b.1 b.2‖ ≤ ‖A a.1 a.2‖ := by
          by_contra h
          push Not at h
          have := pow_le_pow_left₀ (norm_nonneg _) h.le 2
          linarith
        refine ⟨i1, i2, hba.trans i3, fun x hx => ?_⟩
        rcases List.mem_cons.mp hx with rfl | hx
        · exact i3
        · exact i4 x hx
      · rw [if_neg hlt]
        obtain ⟨i1, i2, i3, i4⟩ := ih b hl' h1 h2
        have hab : ‖A a.1 a.2‖ ≤ ‖A b.1 b.2‖ := by
          by_contra h
          push Not at h
          have := pow_lt_pow_left₀ h (norm_nonneg _) (n := 2) (by norm_num)
          exact hlt this
        refine ⟨i1, i2, i3, fun x hx => ?_⟩
        rcases List.mem_cons.mp hx with rfl | hx
        · exact hab.trans i3
        · exact i4 x hx
  have hall : ∀ x ∈ ((List.finRange n).filter (k ≤ ·)).flatMap fun c => ((List.finRange n).filter (k ≤ ·)).map fun r => (r, c),
      k ≤ x.1 ∧ k ≤ x.2 := by
    intro x hx
    simp only [List.mem_flatMap, List.mem_filter, List.mem_map] at hx
    obtain ⟨c, ⟨_, hc⟩, r, ⟨_, hr⟩, rfl⟩ := hx
    exact ⟨by simpa using hr, by simpa using hc⟩
  obtain ⟨h1, h2, _, h4⟩ := key _ (k, k) hall le_rfl le_rfl
  refine ⟨h1, h2, fun r c hr hc => h4 (r, c) ?_⟩
  simp only [List.mem_flatMap, List.mem_filter, List.mem_map]
  exact ⟨c, ⟨by simp, by simpa using hc⟩, r, ⟨by simp, by simpa using hr⟩, rfl⟩

/-! ## Perturbation -/

theorem perturb_norm (thr : ℝ) (v : K) (flag : Bool) (h : 0 ≤ thr) :
    ‖(perturb thr v flag).1 - v‖ ≤ thr ∧ ‖v‖ ≤ ‖(perturb thr v flag).1‖ ∧ (perturb thr v flag).2.1 = ‖(perturb thr v flag).1‖ := by
  unfold perturb
  split_ifs with h1 h2
  · have : v = 0 := norm_eq_zero.mp h2
    subst this
    simp [abs_of_nonneg h, h]
  · have hv : (‖v‖ : K) ≠ 0 := by simpa using h2
    have e : v / (‖v‖ : K) * (thr : K) - v = v / (‖v‖ : K) * ((thr - ‖v‖ : ℝ) : K) := by
      push_cast
      field_simp
    have hu : ‖v / (‖v‖ : K)‖ = 1 := by
      rw [norm_div, RCLike.norm_ofReal, abs_norm]
      exact div_self h2
    simp only
    rw [e, norm_mul, hu, one_mul, norm_mul, hu, one_mul, RCLike.norm_ofReal, RCLike.norm_ofReal, abs_of_nonneg h,
      abs_of_nonneg (by linarith)]
    have := norm_nonneg v
    exact ⟨by linarith, h1.le, rfl⟩
  · simp [h]

theorem perturb_flag (thr : ℝ) (v : K) (flag : Bool) :
    ((perturb thr v flag).2.2 = false → flag = false ∧ (perturb thr v flag).1 = v) ∧
    (flag = true → (perturb thr v flag).2.2 = true) := by
  unfold perturb
  split_ifs <;> simp

/-! ## Triangular solves -/

variable {V : Type} [AddCommGroup V] [Module K V]

theorem inner_fold (idx : Fin n → Fin n) (hidx : Function.Injective idx) (coef : Fin n → Fin n → K) (s : Fin n) (l : List (Fin n))
    (hl : ∀ t ∈ l, t < s) (rhs : Fin n → V) :
    l.foldl (fun rhs t => Function.update rhs (idx s) (rhs (idx s) - coef (idx s) (idx t) • rhs (idx t))) rhs =
      Function.update rhs (idx s) (rhs (idx s) - (l.map fun t => coef (idx s) (idx t) • rhs (idx t)).sum) := by
  induction l generalizing rhs with
  | nil => simp
  | cons a l ih =>
    rw [List.foldl_cons, ih (fun t ht => hl t (by simp [ht]))]
    have : (l.map fun t => coef (idx s) (idx t) •
        Function.update rhs (idx s) (rhs (idx s) - coef (idx s) (idx a) • rhs (idx a)) (idx t)) =
        l.map fun t => coef (idx s) (idx t) • rhs (idx t) := by
      apply List.map_congr_left
      intro t ht
      rw [Function.update_of_ne]
      intro e
      exact absurd (hidx e) (ne_of_lt (hl t (by simp [ht])))
    rw [this]
    simp only [Function.update_self, Function.update_idem, List.map_cons, List.sum_cons, sub_sub]

theorem sum_filter_lt (s : Fin n) (f : Fin n → V) :
    (((List.finRange n).filter (· < s)).map f).sum = ∑ t, if t < s then f t else 0 := by
  rw [← List.sum_ofFn, List.ofFn_eq_map]
  have : ∀ l : List (Fin n), ((l.filter (· < s)).map f).sum = (l.map fun t => if t < s then f t else 0).sum := by
    intro l
    induction l with
    | nil => rfl
    | cons a l ih =>
      by_cases h : a < s <;> simp [List.filter_cons, h, ih]
  exact this _

/-- The equations that a triangular solve fulfils. -/
theorem tri_loop (idx : Fin n → Fin n) (hidx : Function.Injective idx) (coef : Fin n → Fin n → K) (d : Fin n → K)
    (step : (Fin n → V) → Fin n → V) (hd : ∀ i, d i ≠ 0) (hstep : ∀ rhs i, d i • step rhs i = rhs i) (rhs : Fin n → V) :
    let y := (List.finRange n).foldl (fun rhs s =>
      let r := ((List.finRange n).filter (· < s)).foldl (fun rhs t =>
        Function.update rhs (idx s) (rhs (idx s) - coef (idx s) (idx t) • rhs (idx t))) rhs
      Function.update r (idx s) (step r (idx s))) rhs
    ∀ s, (∑ t, if t < s then coef (idx s) (idx t) • y (idx t) else 0) + d (idx s) • y (idx s) = rhs (idx s) := by
  simp only
  have := foldl_take_induct (n := n) (fun (rhs : Fin n → V) s =>
      Function.update (((List.finRange n).filter (· < s)).foldl (fun rhs t =>
        Function.update rhs (idx s) (rhs (idx s) - coef (idx s) (idx t) • rhs (idx t))) rhs) (idx s)
        (step (((List.finRange n).filter (· < s)).foldl (fun rhs t =>
        Function.update rhs (idx s) (rhs (idx s) - coef (idx s) (idx t) • rhs (idx t))) rhs) (idx s))) rhs
    (fun k y => (∀ s : Fin n, (s : Nat) < k →
        (∑ t, if t < s then coef (idx s) (idx t) • y (idx t) else 0) + d (idx s) • y (idx s) = rhs (idx s)) ∧
      ∀ s : Fin n, k ≤ (s : Nat) → y (idx s) = rhs (idx s))
    ⟨fun s hs => absurd hs (Nat.not_lt_zero _), fun _ _ => rfl⟩ ?_
  · exact fun s => this.1 s s.isLt
  · intro k y ⟨h1, h2⟩
    rw [inner_fold idx hidx coef k _ (fun t ht => by simpa using (List.mem_filter.mp ht).2) y, sum_filter_lt]
    simp only [Function.update_idem]
    set w := step (Function.update y (idx k) (y (idx k) - ∑ t, if t < k then coef (idx k) (idx t) • y (idx t) else 0)) (idx k) with hw
    have hne : ∀ t : Fin n, t ≠ k → Function.update y (idx k) w (idx t) = y (idx t) := fun t ht =>
      Function.update_of_ne (fun e => ht (hidx e)) _ _
    have hsum : ∀ s : Fin n, s ≤ k → (∑ t, if t < s then coef (idx s) (idx t) • Function.update y (idx k) w (idx t) else 0) =
        ∑ t, if t < s then coef (idx s) (idx t) • y (idx t) else 0 := by
      intro s hs
      apply Finset.sum_congr rfl
      intro t _
      split_ifs with h
      · rw [hne t (ne_of_lt (lt_of_lt_of_le h hs))]
      · rfl
    refine ⟨fun s hs => ?_, fun s hs => ?_⟩
    · rcases Nat.lt_or_ge s k with h | h
      · rw [hsum s (le_of_lt h), hne s (ne_of_lt h)]
        exact h1 s h
      · have : s = k := Fin.ext (by omega)
        subst this
        rw [hsum s le_rfl, Function.update_self, hw, hstep, Function.update_self, h2 s le_rfl]
        simp
    · rw [hne s (by intro e; subst e; omega)]
      exact h2 s (by omega)

theorem triIndex_injective (b : Bool) : Function.Injective (triIndex b : Fin n → Fin n) := by
  intro x y h
  unfold triIndex at h
  cases b
  · simpa using h
  · simpa using h

/-- The equations of the four variants in one form. -/
theorem triSolve_spec (side : Side) (factor : Factor) (lu : Blk K n) (hlu : factor = .upper → ∀ i, lu i i ≠ 0) (rhs : Fin n → V) :
    let forward := decide (side = .left) == decide (factor = .lower)
    let y := triSolve side factor lu rhs
    ∀ s, (∑ t, if t < s then (if side = .left then lu (triIndex forward s) (triIndex forward t)
        else lu (triIndex forward t) (triIndex forward s)) • y (triIndex forward t) else 0) +
      (if factor = .upper then lu (triIndex forward s) (triIndex forward s) else 1) • y (triIndex forward s) =
        rhs (triIndex forward s) := by
  simp only
  have := tri_loop (n := n) (K := K) (triIndex (decide (side = .left) == decide (factor = .lower))) (triIndex_injective _)
    (fun i j => if side = .left then lu i j else lu j i) (fun i => if factor = .upper then lu i i else 1)
    (fun r i => if factor = .upper then (lu i i)⁻¹ • r i else r i) (fun i => by
      split_ifs with h
      · exact hlu h i
      · exact one_ne_zero) (fun r i => by
      split_ifs with h
      · rw [smul_smul, mul_inv_cancel₀ (hlu h i), one_smul]
      · rw [one_smul]) rhs
  simp only at this
  have hfun : triSolve side factor lu rhs = _ := rfl
  unfold triSolve
  simp only
  have e : ∀ (r : Fin n → V) (i : Fin n), Function.update r i (if factor = .upper then (lu i i)⁻¹ • r i else r i) =
      if factor = .upper then Function.update r i ((lu i i)⁻¹ • r i) else r := by
    intro r i
    split_ifs
    · rfl
    · simp
  simp only [e] at this
  exact this

/-- Lower factor with unit diagonal of packed factors. -/
def lowerUnit (lu : Blk K n) : Blk K n := fun i j => if j < i then lu i j else if i = j then 1 else 0

/-- Upper factor of packed factors. -/
def upper (lu : Blk K n) : Blk K n := fun i j => if i ≤ j then lu i j else 0

theorem sum_le_split (i : Fin n) (f : Fin n → V) :
    (∑ j, if j ≤ i then f j else 0) = (∑ j, if j < i then f j else 0) + f i := by
  have : ∀ j, (if j ≤ i then f j else 0) = (if j < i then f j else 0) + if j = i then f j else 0 := by
    intro j
    rcases lt_trichotomy j i with h | h | h
    · simp [h, h.le, h.ne]
    · simp [h]
    · simp [h.not_ge, h.not_gt, h.ne']
  simp only [this, Finset.sum_add_distrib, Finset.sum_ite_eq', Finset.mem_univ, if_true]

theorem sum_ge_split (i : Fin n) (f : Fin n → V) :
    (∑ j, if i ≤ j then f j else 0) = (∑ j, if i < j then f j else 0) + f i := by
  have : ∀ j, (if i ≤ j then f j else 0) = (if i < j then f j else 0) + if j = i then f j else 0 := by
    intro j
    rcases lt_trichotomy j i with h | h | h
    · simp [h.not_ge, h.not_gt, h.ne]
    · simp [h]
    · simp [h, h.le, h.ne']
  simp only [this, Finset.sum_add_distrib, Finset.sum_ite_eq', Finset.mem_univ, if_true]

theorem left_lower (lu : Blk K n) (rhs : Fin n → V) (i : Fin n) :
    ∑ j, lowerUnit lu i j • triSolve .left .lower lu rhs j = rhs i := by
  have h := triSolve_spec .left .lower lu (by simp) rhs i
  simp [triIndex] at h
  rw [← h]
  have : ∀ j, lowerUnit lu i j • triSolve .left .lower lu rhs j =
      if j ≤ i then lowerUnit lu i j • triSolve .left .lower lu rhs j else 0 := by
    intro j
    split_ifs with hj
    · rfl
    · unfold lowerUnit
      rw [if_neg (fun h => hj h.le), if_neg (fun h => hj h.ge), zero_smul]
  rw [Finset.sum_congr rfl (fun j _ => this j), sum_le_split]
  congr 1
  · apply Finset.sum_congr rfl
    intro j _
    split_ifs with hj
    · simp [lowerUnit, hj]
    · rfl
  · simp [lowerUnit]

theorem left_upper (lu : Blk K n) (hlu : ∀ i, lu i i ≠ 0) (rhs : Fin n → V) (i : Fin n) :
    ∑ j, upper lu i j • triSolve .left .upper lu rhs j = rhs i := by
  have h := triSolve_spec .left .upper lu (fun _ => hlu) rhs i.rev
  simp [triIndex] at h
  rw [← h]
  have : ∀ j, upper lu i j • triSolve .left .upper lu rhs j =
      if i ≤ j then lu i j • triSolve .left .upper lu rhs j else 0 := by
    intro j
    unfold upper
    split_ifs with hj <;> simp
  rw [Finset.sum_congr rfl (fun j _ => this j), sum_ge_split]
  congr 1
  rw [← Equiv.sum_comp Fin.revPerm]
  apply Finset.sum_congr rfl
  intro j _
  simp [Fin.lt_rev_iff, Fin.rev_lt_iff]

theorem right_lower (lu : Blk K n) (rhs : Fin n → V) (j : Fin n) :
    ∑ i, lowerUnit lu i j • triSolve .right .lower lu rhs i = rhs j := by
  have h := triSolve_spec .right .lower lu (by simp) rhs j.rev
  simp [triIndex] at h
  rw [← h]
  have : ∀ i, lowerUnit lu i j • triSolve .right .lower lu rhs i =
      if j ≤ i then lowerUnit lu i j • triSolve .right .lower lu rhs i else 0 := by
    intro i
    split_ifs with hj
    · rfl
    · unfold lowerUnit
      rw [if_neg (fun h => hj h.le), if_neg (fun h => hj h.ge), zero_smul]
  rw [Finset.sum_congr rfl (fun j _ => this j), sum_ge_split]
  congr 1
  · rw [← Equiv.sum_comp Fin.revPerm]
    apply Finset.sum_congr rfl
    intro i _
    simp only [Fin.revPerm_apply, lowerUnit, Fin.lt_rev_iff]
    split_ifs <;> rfl
  · simp [lowerUnit]

theorem right_upper (lu : Blk K n) (hlu : ∀ i, lu i i ≠ 0) (rhs : Fin n → V) (j : Fin n) :
    ∑ i, upper lu i j • triSolve .right .upper lu rhs i = rhs j := by
  have h := triSolve_spec .right .upper lu (fun _ => hlu) rhs j
  simp [triIndex] at h
  rw [← h]
  have : ∀ i, upper lu i j • triSolve .right .upper lu rhs i =
      if i ≤ j then lu i j • triSolve .right .upper lu rhs i else 0 := by
    intro i
    unfold upper
    split_ifs with hj <;> simp
  rw [Finset.sum_congr rfl (fun j _ => this j), sum_le_split]

end PGM.Lu
