import Verif.LinkSolver.Model
import Mathlib.Data.Complex.Basic
import Mathlib.Data.Complex.BigOperators
import Mathlib.Algebra.BigOperators.Ring.Finset
import Mathlib.Algebra.BigOperators.Group.Finset.Piecewise
import Mathlib.Algebra.BigOperators.Intervals
import Mathlib.Algebra.Order.BigOperators.Ring.Finset
import Mathlib.Tactic.SplitIfs
import Mathlib.Tactic.Ring
import Mathlib.Tactic.FieldSimp
import Mathlib.Tactic.LinearCombination
import Mathlib.Tactic.Linarith
import Mathlib.Algebra.BigOperators.Field
import Mathlib.Data.List.Nodup

/-!
# Link solver: the Gauss elimination without pivoting

On a system with a symmetric positive definite real matrix it finds the solution.
-/

namespace PGM.LinkSolver

variable {K : Type} [Field K]

theorem elimRows_eq (k col : Nat) (L : List Nat) (hL : L.Nodup) (hc : col ∉ L) (S : Nat → Nat → K) (r c : Nat) :
    L.foldl (elimRow k col) S r c =
      if r ∈ L then (if c = col then S r col / -S col col else if col < c ∧ c ≤ k then S r c + S r col / -S col col * S col c else S r c) else S r c := by
  induction L generalizing S with
  | nil => simp
  | cons a L ih =>
    rw [List.nodup_cons] at hL
    rw [List.mem_cons, not_or] at hc
    rw [List.foldl_cons, ih hL.2 hc.2]
    have hcol : ∀ c, elimRow k col S a col c = S col c := by
      intro c
      unfold elimRow
      rw [if_neg hc.1]
    have hother : ∀ r c, r ≠ a → elimRow k col S a r c = S r c := by
      intro r c h
      unfold elimRow
      rw [if_neg h]
    by_cases hr : r ∈ L
    · have hra : r ≠ a := fun e => hL.1 (e ▸ hr)
      rw [if_pos hr, if_pos (List.mem_cons_of_mem _ hr), hcol, hcol, hother r col hra, hother r c hra]
    · rw [if_neg hr]
      by_cases hra : r = a
      · subst hra
        rw [if_pos (by simp)]
        unfold elimRow
        simp
      · rw [if_neg (by simp [hra, hr]), hother r c hra]

theorem elimCol_eq (k col : Nat) (S : Nat → Nat → K) (r c : Nat) :
    elimCol k S col r c = if col < r ∧ r < k then
      (if c = col then S r col / -S col col else if col < c ∧ c ≤ k then S r c + S r col / -S col col * S col c else S r c) else S r c := by
  unfold elimCol
  rw [elimRows_eq k col _ List.nodup_range' (by simp)]
  have : r ∈ List.range' (col + 1) (k - (col + 1)) ↔ col < r ∧ r < k := by
    rw [List.mem_range'_1]; omega
  simp only [this]

/-- The equations that remain when the columns below `c` are done. -/
def Remaining (k c : Nat) (S : Nat → Nat → K) (x : Nat → K) : Prop :=
  ∀ r, r < k → ∑ b ∈ Finset.Ico (min r c) k, S r b * x b = S r k

theorem remaining_back {k c : Nat} (hc : c < k) {S : Nat → Nat → K} (hp : S c c ≠ 0) {x : Nat → K} (h : Remaining k (c + 1) (elimCol k S c) x) :
    Remaining k c S x := by
  have hrowc : ∑ b ∈ Finset.Ico c k, S c b * x b = S c k := by
    have := h c hc
    rw [show min c (c + 1) = c by omega] at this
    simpa only [elimCol_eq, lt_irrefl, false_and, if_false] using this
  intro r hr
  by_cases hrc : r ≤ c
  · have := h r hr
    rw [show min r (c + 1) = r by omega] at this
    rw [show min r c = r by omega]
    have hn : ¬(c < r ∧ r < k) := by omega
    simpa only [elimCol_eq, hn, if_false] using this
  · have := h r hr
    rw [show min r (c + 1) = c + 1 by omega] at this
    rw [show min r c = c by omega, Finset.sum_eq_sum_Ico_succ_bot hc]
    rw [Finset.sum_eq_sum_Ico_succ_bot hc] at hrowc
    have hy : c < r ∧ r < k := by omega
    rw [elimCol_eq, if_pos hy, if_neg (by omega), if_pos (by omega)] at this
    have hsum : ∑ b ∈ Finset.Ico (c + 1) k, elimCol k S c r b * x b =
        ∑ b ∈ Finset.Ico (c + 1) k, S r b * x b + S r c / -S c c * ∑ b ∈ Finset.Ico (c + 1) k, S c b * x b := by
      rw [Finset.mul_sum, ← Finset.sum_add_distrib]
      refine Finset.sum_congr rfl fun b hb => ?_
      rw [Finset.mem_Ico] at hb
      rw [elimCol_eq, if_pos hy, if_neg (by omega), if_pos (by omega)]
      ring
    rw [hsum] at this
    have hq : S r c / -S c c * S c c = -S r c := by field_simp
    linear_combination this + (-(S r c / -S c c)) * hrowc + x c * hq

/-- The part of the matrix that is left is real, symmetric and positive definite. -/
def Positive (k c : Nat) (S : Nat → Nat → ℂ) : Prop :=
  ∃ R : Nat → Nat → ℝ, (∀ a b, c ≤ a → a < k → c ≤ b → b < k → S a b = (R a b : ℂ)) ∧ (∀ a b, R a b = R b a) ∧
    ∀ w : Nat → ℝ, (∃ a, c ≤ a ∧ a < k ∧ w a ≠ 0) → 0 < ∑ a ∈ Finset.Ico c k, ∑ b ∈ Finset.Ico c k, w a * R a b * w b

theorem positive_pivot {k c : Nat} (hc : c < k) {S : Nat → Nat → ℂ} {R : Nat → Nat → ℝ}
    (h : ∀ w : Nat → ℝ, (∃ a, c ≤ a ∧ a < k ∧ w a ≠ 0) → 0 < ∑ a ∈ Finset.Ico c k, ∑ b ∈ Finset.Ico c k, w a * R a b * w b) : 0 < R c c := by
  have := h (fun a => if a = c then 1 else 0) ⟨c, le_refl _, hc, by simp⟩
  simpa [hc] using this

theorem positive_step {k c : Nat} (hc : c < k) {S : Nat → Nat → ℂ} (h : Positive k c S) : S c c ≠ 0 ∧ Positive k (c + 1) (elimCol k S c) := by
  obtain ⟨R, h1, h2, h3⟩ := h
  have hpos := positive_pivot (S := S) hc h3
  have hcc : S c c = (R c c : ℂ) := h1 c c (le_refl _) hc (le_refl _) hc
  refine ⟨by rw [hcc]; exact_mod_cast hpos.ne', fun a b => R a b - R a c * R c b / R c c, fun a b ha hak hb hbk => ?_, fun a b => ?_, fun w hw => ?_⟩
  · rw [elimCol_eq, if_pos ⟨by omega, hak⟩, if_neg (by omega), if_pos ⟨by omega, by omega⟩, hcc, h1 a b (by omega) hak (by omega) hbk,
      h1 a c (by omega) hak (le_refl _) hc, h1 c b (le_refl _) hc (by omega) hbk]
    push_cast
    have : ((R c c : ℝ) : ℂ) ≠ 0 := by exact_mod_cast hpos.ne'
    field_simp
    ring
  · beta_reduce
    rw [h2 a b, h2 a c, h2 c b]; ring
  · obtain ⟨s, hs⟩ : ∃ s, s = ∑ b ∈ Finset.Ico (c + 1) k, R c b * w b := ⟨_, rfl⟩
    obtain ⟨w', hw'⟩ : ∃ w' : Nat → ℝ, w' = fun a => if a = c then -s / R c c else w a := ⟨_, rfl⟩
    have hwc : w' c = -s / R c c := by rw [hw']; simp
    have hwo : ∀ a, c + 1 ≤ a → w' a = w a := by
      intro a ha
      rw [hw']
      simp only
      rw [if_neg (by omega)]
    have := h3 w' (by
      obtain ⟨a, ha, hak, hne⟩ := hw
      exact ⟨a, by omega, hak, by rw [hwo a ha]; exact hne⟩)
    rw [Finset.sum_eq_sum_Ico_succ_bot hc, Finset.sum_eq_sum_Ico_succ_bot hc] at this
    have e1 : ∑ b ∈ Finset.Ico (c + 1) k, w' c * R c b * w' b = w' c * s := by
      rw [hs, Finset.mul_sum]
      refine Finset.sum_congr rfl fun b hb => ?_
      rw [Finset.mem_Ico] at hb
      rw [hwo b hb.1]; ring
    have e2 : ∑ a ∈ Finset.Ico (c + 1) k, ∑ b ∈ Finset.Ico c k, w' a * R a b * w' b =
        w' c * s + ∑ a ∈ Finset.Ico (c + 1) k, ∑ b ∈ Finset.Ico (c + 1) k, w a * R a b * w b := by
      rw [hs, Finset.mul_sum, ← Finset.sum_add_distrib]
      refine Finset.sum_congr rfl fun a ha => ?_
      rw [Finset.mem_Ico] at ha
      rw [Finset.sum_eq_sum_Ico_succ_bot hc, hwo a ha.1]
      congr 1
      · rw [h2 a c]; ring
      · refine Finset.sum_congr rfl fun b hb => ?_
        rw [Finset.mem_Ico] at hb
        rw [hwo b hb.1]
    have e3 : ∑ a ∈ Finset.Ico (c + 1) k, ∑ b ∈ Finset.Ico (c + 1) k, w a * (R a b - R a c * R c b / R c c) * w b =
        ∑ a ∈ Finset.Ico (c + 1) k, ∑ b ∈ Finset.Ico (c + 1) k, w a * R a b * w b - s * s / R c c := by
      have : s * s / R c c = ∑ a ∈ Finset.Ico (c + 1) k, ∑ b ∈ Finset.Ico (c + 1) k, w a * (R a c * R c b / R c c) * w b := by
        rw [hs, Finset.sum_mul_sum, Finset.sum_div]
        refine Finset.sum_congr rfl fun a _ => ?_
        rw [Finset.sum_div]
        refine Finset.sum_congr rfl fun b _ => ?_
        rw [h2 a c]; ring
      rw [this, ← Finset.sum_sub_distrib]
      refine Finset.sum_congr rfl fun a _ => ?_
      rw [← Finset.sum_sub_distrib]
      refine Finset.sum_congr rfl fun b _ => ?_
      ring
    rw [e3]
    rw [e1, e2, hwc] at this
    have e4 : -s / R c c * R c c * (-s / R c c) + -s / R c c * s + -s / R c c * s = -(s * s / R c c) := by
      field_simp
      ring
    linarith [this, e4]

theorem eliminate_ok {k : Nat} {S : Nat → Nat → ℂ} (h : Positive k 0 S) (x : Nat → ℂ) :
    (∀ r, r < k → (List.range k).foldl (elimCol k) S r r ≠ 0) ∧
    (Remaining k k ((List.range k).foldl (elimCol k) S) x → Remaining k 0 S x) := by
  have main : ∀ c, c ≤ k → Positive k c ((List.range c).foldl (elimCol k) S) ∧ (∀ r, r < c → (List.range c).foldl (elimCol k) S r r ≠ 0) ∧
      (Remaining k c ((List.range c).foldl (elimCol k) S) x → Remaining k 0 S x) := by
    intro c
    induction c with
    | zero => exact fun _ => ⟨h, by simp, id⟩
    | succ c ih =>
      intro hc
      obtain ⟨a1, a2, a3⟩ := ih (by omega)
      rw [List.range_succ, List.foldl_append]
      simp only [List.foldl_cons, List.foldl_nil]
      obtain ⟨b1, b2⟩ := positive_step (by omega) a1
      refine ⟨b2, fun r hr => ?_, fun hx => a3 (remaining_back (by omega) b1 hx)⟩
      rw [elimCol_eq, if_neg (by omega)]
      by_cases hrc : r = c
      · rw [hrc]; exact b1
      · exact a2 r (by omega)
  exact (main k (le_refl _)).2

theorem substitute_ok {k : Nat} {S : Nat → Nat → K} (h : ∀ r, r < k → S r r ≠ 0) :
    Remaining k k S (fun c => (List.range k).reverse.foldl (substRow k) S c k) := by
  have main : ∀ q, q ≤ k → ∀ T : Nat → Nat → K, (∀ a b, b < k → T a b = S a b) → (∀ a, a < q → T a k = S a k) →
      (∀ r, q ≤ r → r < k → ∑ b ∈ Finset.Ico r k, S r b * T b k = S r k) →
      ∀ r, r < k → ∑ b ∈ Finset.Ico r k, S r b * (List.range q).reverse.foldl (substRow k) T b k = S r k := by
    intro q
    induction q with
    | zero => exact fun _ T _ _ h3 r hr => h3 r (by omega) hr
    | succ q ih =>
      intro hq T h1 h2 h3
      rw [List.range_succ, List.reverse_append]
      simp only [List.reverse_singleton, List.singleton_append, List.foldl_cons]
      have hsub : ∀ a b, substRow k T q a b = if a = q ∧ b = k then (T q k + ∑ c ∈ Finset.Ico (q + 1) k, -(T q c * T c k)) / T q q else T a b := by
        intro a b
        unfold substRow
        rw [Function.update_apply]
        by_cases ha : a = q
        · subst ha
          rw [if_pos rfl, Function.update_apply]
          simp
        · simp [ha]
      refine ih (by omega) _ (fun a b hb => ?_) (fun a ha => ?_) (fun r hr hrk => ?_)
      · rw [hsub, if_neg (by omega)]; exact h1 a b hb
      · rw [hsub, if_neg (by omega)]; exact h2 a (by omega)
      · have hsame : ∀ b, b ≠ q → substRow k T q b k = T b k := by
          intro b hb
          rw [hsub, if_neg (by simp [hb])]
        by_cases hrq : r = q
        · subst hrq
          rw [Finset.sum_eq_sum_Ico_succ_bot hrk, hsub, if_pos ⟨rfl, rfl⟩, h1 r r hrk, h2 r (by omega)]
          have e : ∑ b ∈ Finset.Ico (r + 1) k, S r b * substRow k T r b k = ∑ b ∈ Finset.Ico (r + 1) k, T r b * T b k := by
            refine Finset.sum_congr rfl fun b hb => ?_
            rw [Finset.mem_Ico] at hb
            rw [hsame b (by omega), h1 r b hb.2]
          rw [e, Finset.sum_neg_distrib, mul_div_cancel₀ _ (h r hrk)]
          ring
        · rw [← h3 r (by omega) hrk]
          refine Finset.sum_congr rfl fun b hb => ?_
          rw [Finset.mem_Ico] at hb
          rw [hsame b (by omega)]
  intro r hr
  rw [show min r k = r by omega]
  exact main k (le_refl _) S (fun _ _ _ => rfl) (fun _ _ => rfl) (fun r h1 h2 => by omega) r hr

/-- The elimination solves a positive definite system. -/
theorem gauss_ok {k : Nat} {S : Nat → Nat → ℂ} (h : Positive k 0 S) : ∀ r, r < k → ∑ b ∈ Finset.range k, S r b * gauss k S b k = S r k := by
  obtain ⟨h1, _⟩ := eliminate_ok h 0
  have := (eliminate_ok h _).2 (substitute_ok h1)
  intro r hr
  have := this r hr
  rw [show min r 0 = 0 by omega] at this
  rw [← Nat.Ico_zero_eq_range]
  exact this

end PGM.LinkSolver
