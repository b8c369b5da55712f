import Verif.Newton.Derivative
import Mathlib.Analysis.SpecialFunctions.Trigonometric.Bounds
import Mathlib.Analysis.Complex.Exponential

/-!
# What a Newton step leaves of the mismatch

Lemmas for C54: the mismatch after a step is the mismatch before it, minus the Jacobian applied to the step, plus a term that is quadratic in the
change of the voltages.
-/

namespace PGM.NewtonPf

open PGM.YBus PGM.Lu PGM.PowerFlow PGM.Component

variable {s : Symm}

/-! ## One phasor -/

/-- The factor by which a step changes a phasor. -/
noncomputable def ratio (d : Polar s) : CV s := fun p => (1 + (d.v p : ℂ)) * Complex.exp (Complex.I * (d.theta p : ℂ))

theorem phasor_update (x d : Polar s) : phasor (updatePolar x d) = phasor x * ratio d := by
  funext p
  simp only [phasor, updatePolar, ratio, Pi.mul_apply]
  push_cast
  rw [mul_add, Complex.exp_add]
  ring

theorem ratio_norm (d : Polar s) (p : Fin s.phases) (h : -1 < d.v p) : ‖ratio d p‖ = 1 + d.v p := by
  unfold ratio
  rw [norm_mul, mul_comm Complex.I, Complex.norm_exp_ofReal_mul_I, mul_one]
  have : (1 + (d.v p : ℂ)) = ((1 + d.v p : ℝ) : ℂ) := by push_cast; rfl
  rw [this, Complex.norm_real, Real.norm_eq_abs, abs_of_pos (by linarith)]

/-- A small change of a phasor, without a turn of the angle, is a small step. -/
theorem step_small (d : Polar s) (p : Fin s.phases) (ε : ℝ) (hε : ε ≤ 1 / 2) (hv : -1 < d.v p) (hθ : |d.theta p| ≤ Real.pi)
    (h : ‖ratio d p - 1‖ ≤ ε) : |d.v p| ≤ ε ∧ ‖ratio d p - 1 - d.cplx p‖ ≤ 8 * ε ^ 2 := by
  set ν := d.v p with hν
  set φ := d.theta p with hφ
  have hε0 : 0 ≤ ε := (norm_nonneg _).trans h
  have h1 : |ν| ≤ ε := by
    have := abs_norm_sub_norm_le (ratio d p) 1
    rw [ratio_norm d p hv, norm_one] at this
    have e : 1 + d.v p - 1 = ν := by rw [hν]; ring
    rw [e] at this
    exact this.trans h
  refine ⟨h1, ?_⟩
  have hre : (ratio d p).re = (1 + ν) * Real.cos φ := by
    unfold ratio
    rw [mul_comm Complex.I, Complex.exp_mul_I, ← Complex.ofReal_cos, ← Complex.ofReal_sin]
    rw [← hν, ← hφ]
    simp [-Complex.ofReal_cos, -Complex.ofReal_sin]
  have him : (ratio d p).im = (1 + ν) * Real.sin φ := by
    unfold ratio
    rw [mul_comm Complex.I, Complex.exp_mul_I, ← Complex.ofReal_cos, ← Complex.ofReal_sin]
    rw [← hν, ← hφ]
    simp [-Complex.ofReal_cos, -Complex.ofReal_sin]
  obtain ⟨hν1, hν2⟩ := abs_le.mp h1
  -- the angle
  have hcos : 0 < Real.cos φ := by
    have e := (Complex.abs_re_le_norm (ratio d p - 1)).trans h
    rw [Complex.sub_re, hre, Complex.one_re] at e
    have := (abs_le.mp e).1
    by_contra hc
    push Not at hc
    have : (1 + ν) * Real.cos φ ≤ 0 := mul_nonpos_of_nonneg_of_nonpos (by linarith) hc
    linarith
  have hlt : |φ| ≤ Real.pi / 2 := by
    by_contra hc
    push Not at hc
    have := Real.cos_nonpos_of_pi_div_two_le_of_le hc.le (by linarith [Real.pi_pos])
    rw [Real.cos_abs] at this
    linarith
  have hsin : |Real.sin φ| ≤ ε := by
    have e : ‖ratio d p - 1‖ ^ 2 = ((1 + ν) - Real.cos φ) ^ 2 + Real.sin φ ^ 2 := by
      rw [Complex.sq_norm, Complex.normSq_apply, Complex.sub_re, Complex.sub_im, hre, him, Complex.one_re, Complex.one_im]
      have := Real.sin_sq_add_cos_sq φ
      linear_combination ((1 + ν) ^ 2 - 1) * this
    have e2 : ‖ratio d p - 1‖ ^ 2 ≤ ε ^ 2 := pow_le_pow_left₀ (norm_nonneg _) h 2
    exact abs_le_of_sq_le_sq (by nlinarith [sq_nonneg ((1 + ν) - Real.cos φ)]) hε0
  have hφ2 : |φ| ≤ 2 * ε := by
    have e := Real.mul_le_sin (abs_nonneg φ) hlt
    have e2 : Real.sin |φ| ≤ ε := by
      refine le_trans ?_ hsin
      rcases abs_choice φ with h' | h'
      · rw [h']; exact le_abs_self _
      · rw [h', Real.sin_neg]; exact neg_le_abs _
    have e3 : 2 / Real.pi * |φ| ≤ ε := e.trans e2
    have hpi := Real.pi_pos
    have e4 : 2 * |φ| ≤ ε * Real.pi := by
      have := mul_le_mul_of_nonneg_right e3 hpi.le
      have e5 : 2 / Real.pi * |φ| * Real.pi = 2 * |φ| := by field_simp
      linarith
    nlinarith [Real.pi_le_four]
  -- the remainder
  have hexp : ‖Complex.exp (Complex.I * (φ : ℂ)) - 1 - Complex.I * (φ : ℂ)‖ ≤ |φ| ^ 2 := by
    have hn : ‖Complex.I * (φ : ℂ)‖ = |φ| := by rw [norm_mul, Complex.norm_I, one_mul, Complex.norm_real, Real.norm_eq_abs]
    have := Complex.norm_exp_sub_one_sub_id_le (x := Complex.I * (φ : ℂ)) (by rw [hn]; linarith)
    rwa [hn] at this
  have heq : ratio d p - 1 - d.cplx p = (1 + (ν : ℂ)) * (Complex.exp (Complex.I * (φ : ℂ)) - 1 - Complex.I * (φ : ℂ)) +
      Complex.I * (ν : ℂ) * (φ : ℂ) := by
    unfold ratio Polar.cplx
    rw [← hν, ← hφ]
    ring
  rw [heq]
  have hn1 : ‖(1 + (ν : ℂ))‖ ≤ 3 / 2 := by
    have : (1 + (ν : ℂ)) = ((1 + ν : ℝ) : ℂ) := by push_cast; rfl
    rw [this, Complex.norm_real, Real.norm_eq_abs, abs_of_pos (by linarith)]
    linarith
  have hn2 : ‖Complex.I * (ν : ℂ) * (φ : ℂ)‖ ≤ ε * (2 * ε) := by
    rw [norm_mul, norm_mul, Complex.norm_I, one_mul, Complex.norm_real, Complex.norm_real, Real.norm_eq_abs, Real.norm_eq_abs]
    exact mul_le_mul h1 hφ2 (abs_nonneg _) hε0
  have hφ3 : |φ| ^ 2 ≤ (2 * ε) ^ 2 := pow_le_pow_left₀ (abs_nonneg _) hφ2 2
  calc _ ≤ ‖(1 + (ν : ℂ)) * (Complex.exp (Complex.I * (φ : ℂ)) - 1 - Complex.I * (φ : ℂ))‖ + ‖Complex.I * (ν : ℂ) * (φ : ℂ)‖ := norm_add_le _ _
    _ ≤ 3 / 2 * (2 * ε) ^ 2 + ε * (2 * ε) := by
      refine add_le_add ?_ hn2
      rw [norm_mul]
      exact mul_le_mul hn1 (hexp.trans hφ3) (norm_nonneg _) (by norm_num)
    _ = 8 * ε ^ 2 := by ring

/-! ## The expansion -/

/-- The second order part of a product of phasors. -/
noncomputable def second (a b : Polar s) (p q : Fin s.phases) : ℂ := ratio a p * star (ratio b q) - 1 - a.cplx p - star (b.cplx q)

theorem second_small (a b : Polar s) (p q : Fin s.phases) (ε : ℝ) (ha : ‖ratio a p - 1‖ ≤ ε) (hb : ‖ratio b q - 1‖ ≤ ε)
    (ha2 : ‖ratio a p - 1 - a.cplx p‖ ≤ 8 * ε ^ 2) (hb2 : ‖ratio b q - 1 - b.cplx q‖ ≤ 8 * ε ^ 2) : ‖second a b p q‖ ≤ 17 * ε ^ 2 := by
  have e : second a b p q = (ratio a p - 1) * star (ratio b q - 1) + (ratio a p - 1 - a.cplx p) + star (ratio b q - 1 - b.cplx q) := by
    unfold second
    simp only [star_sub, star_one]
    ring
  rw [e]
  have hε0 : 0 ≤ ε := (norm_nonneg _).trans ha
  have h1 : ‖(ratio a p - 1) * star (ratio b q - 1)‖ ≤ ε * ε := by
    rw [norm_mul, norm_star]
    exact mul_le_mul ha hb (norm_nonneg _) hε0
  calc _ ≤ ‖(ratio a p - 1) * star (ratio b q - 1)‖ + ‖ratio a p - 1 - a.cplx p‖ + ‖star (ratio b q - 1 - b.cplx q)‖ := norm_add₃_le
    _ ≤ ε * ε + 8 * ε ^ 2 + 8 * ε ^ 2 := by
      rw [norm_star]
      exact add_le_add (add_le_add h1 ha2) hb2
    _ = 17 * ε ^ 2 := by ring

theorem flow_expand (y : CM s) (ui uj : CV s) (a b : Polar s) (p : Fin s.phases) :
    (ui * ratio a) p * star (dot s y (uj * ratio b) p) = ui p * star (dot s y uj p) + ui p * star (dot s y uj p) * a.cplx p +
      ∑ q, powerFlow y ui uj p q * star (b.cplx q) + ∑ q, powerFlow y ui uj p q * second a b p q := by
  have h0 : ui p * star (dot s y uj p) = ∑ q, powerFlow y ui uj p q := (powerFlow_sum y ui uj p).symm
  rw [h0, Finset.sum_mul, ← Finset.sum_add_distrib, ← Finset.sum_add_distrib, ← Finset.sum_add_distrib, dot_apply, star_sum,
    Finset.mul_sum]
  refine Finset.sum_congr rfl fun q _ => ?_
  simp only [powerFlow, Pi.mul_apply, star_mul', second]
  ring

theorem taken_expand {N : PfNet s} (x d : Nat → Polar s) (r : Nat) (p : Fin s.phases) :
    taken N (fun c => phasor (updatePolar (x c) (d c))) r p = taken N (fun c => phasor (x c)) r p +
      (taken N (fun c => phasor (x c)) r p * (d r).cplx p +
      ∑ c ∈ Finset.range N.T.nBus, ∑ q, powerFlow (nodal N.T N.y.param r c) (phasor (x r)) (phasor (x c)) p q * star ((d c).cplx q)) +
      ∑ c ∈ Finset.range N.T.nBus, ∑ q, powerFlow (nodal N.T N.y.param r c) (phasor (x r)) (phasor (x c)) p q * second (d r) (d c) p q := by
  unfold taken
  simp only [phasor_update, Pi.mul_apply, Pi.star_apply, Finset.sum_apply, star_sum, Finset.mul_sum]
  rw [Finset.sum_mul, ← Finset.sum_add_distrib, ← Finset.sum_add_distrib, ← Finset.sum_add_distrib]
  refine Finset.sum_congr rfl fun c _ => ?_
  have := flow_expand (nodal N.T N.y.param r c) (phasor (x r)) (phasor (x c)) (d r) (d c) p
  rw [Pi.mul_apply] at this
  rw [this]
  ring

theorem given_expand (inp : PfInput s) (type : Nat → LoadType) (fixed : Nat → Option (RV s ℝ)) (x d : Polar s) (k : Nat) (p : Fin s.phases) :
    ∃ e, given inp type fixed (updatePolar x d).v k p = given inp type fixed x.v k p -
      (loadSlope inp (type k) (fixed k) k x.v).cplx p * ((d.cplx p).re : ℂ) + e ∧ ‖e‖ ≤ ‖given inp type fixed x.v k p‖ * d.v p ^ 2 := by
  have hre : (d.cplx p).re = d.v p := by simp [Polar.cplx]
  rw [hre]
  have hs : inp.sInj k p = ((inp.sInj k p).re : ℂ) + ((inp.sInj k p).im : ℂ) * Complex.I := (Complex.re_add_im _).symm
  have hz : ∀ z : ℂ, ‖(0 : ℂ)‖ ≤ ‖z‖ * d.v p ^ 2 := fun z => by rw [norm_zero]; positivity
  unfold given loadSlope
  cases fixed k with
  | some q => exact ⟨0, by simp [Power.cplx], hz _⟩
  | none =>
    cases type k with
    | constPq => exact ⟨0, by simp [Power.cplx, factor], hz _⟩
    | constY =>
      refine ⟨inp.sInj k p * (x.v p : ℂ) ^ 2 * (d.v p : ℂ) ^ 2, ?_, ?_⟩
      · simp only [Power.cplx, factor, updatePolar]
        have e : ((-(inp.sInj k p).re * 2 * x.v p * x.v p : ℝ) : ℂ) + ((-(inp.sInj k p).im * 2 * x.v p * x.v p : ℝ) : ℂ) * Complex.I =
            -(inp.sInj k p) * 2 * x.v p * x.v p := by
          conv_rhs => rw [hs]
          push_cast
          ring
        rw [e]
        push_cast
        ring
      · simp only [factor]
        rw [norm_mul]
        push_cast
        refine mul_le_mul_of_nonneg_left ?_ (norm_nonneg _)
        rw [norm_pow, Complex.norm_real, Real.norm_eq_abs, sq_abs]
    | constI =>
      refine ⟨0, ?_, hz _⟩
      simp only [Power.cplx, factor, updatePolar]
      have e : ((-(inp.sInj k p).re * x.v p : ℝ) : ℂ) + ((-(inp.sInj k p).im * x.v p : ℝ) : ℂ) * Complex.I = -(inp.sInj k p) * x.v p := by
        conv_rhs => rw [hs]
        push_cast
        ring
      rw [e]
      push_cast
      ring

theorem source_expand (N : PfNet s) (inp : PfInput s) (x d : Polar s) (k : Nat) (p : Fin s.phases) :
    (phasor (updatePolar x d) * star (physicalSource N inp (phasor (updatePolar x d)) k)) p =
      (phasor x * star (physicalSource N inp (phasor x) k)) p -
      ((∑ q, powerFlow (yRef s (N.y1 k) (N.y0 k)) (phasor x) (phasor x) p q * star (d.cplx q)) -
        phasor x p * star (physicalSource N inp (phasor x) k p) * d.cplx p) +
      (phasor x p * star (dot s (yRef s (N.y1 k) (N.y0 k)) (spread s (inp.source k)) p) * (ratio d p - 1 - d.cplx p) -
        ∑ q, powerFlow (yRef s (N.y1 k) (N.y0 k)) (phasor x) (phasor x) p q * second d d p q) := by
  unfold physicalSource
  rw [phasor_update]
  simp only [Pi.mul_apply, Pi.star_apply, map_sub, Pi.sub_apply, star_sub]
  have := flow_expand (yRef s (N.y1 k) (N.y0 k)) (phasor x) (phasor x) d d p
  rw [Pi.mul_apply] at this
  linear_combination -this

/-! ## The bound -/

theorem onBus_sum_real (l : List Nat) (f : Nat → ℝ) (b : Nat) :
    (l.zipIdx.map fun k => if k.1 = b then f k.2 else 0).sum = ((onBus l b).map f).sum := (onBus_sum l f b).symm

theorem list_norm_le {A : Type} (l : List A) (f : A → ℂ) (g : A → ℝ) (c : ℝ) (h : ∀ k ∈ l, ‖f k‖ ≤ c * g k) : ‖(l.map f).sum‖ ≤ c * (l.map g).sum := by
  induction l with
  | nil => simp
  | cons a l ih =>
    simp only [List.map_cons, List.sum_cons]
    rw [mul_add]
    exact (norm_add_le _ _).trans (add_le_add (h a (by simp)) (ih fun k hk => h k (by simp [hk])))

theorem powerFlow_norm (y : CM s) (ui uj : CV s) (p q : Fin s.phases) : ‖powerFlow y ui uj p q‖ = ‖ui p‖ * ‖y p q‖ * ‖uj q‖ := by
  unfold powerFlow
  rw [norm_mul, norm_mul, norm_star, norm_star]
  ring

/-- **The mismatch after a step**, for a step that changes every phasor by at most the fraction `ε` and does not turn or reverse one. -/
theorem mismatch_after {N : PfNet s} (inp : PfInput s) (type : Nat → LoadType) (fixed : Nat → Option (RV s ℝ)) (x d : Nat → Polar s) (ε : ℝ)
    (hε : ε ≤ 1 / 2) (hv : ∀ b, b < N.T.nBus → ∀ p, -1 < (d b).v p) (hθ : ∀ b, b < N.T.nBus → ∀ p, |(d b).theta p| ≤ Real.pi)
    (hd : ∀ b, b < N.T.nBus → ∀ p, ‖ratio (d b) p - 1‖ ≤ ε) (r : Nat) (hr : r < N.T.nBus) (p : Fin s.phases) :
    ‖mismatch N inp type fixed (fun b => updatePolar (x b) (d b)) r p - (mismatch N inp type fixed x r p -
      ∑ c ∈ Finset.range N.T.nBus, jacAct N inp type fixed x (fun c => phasor (x c)) r c (d c).cplx p)‖ ≤
      17 * ε ^ 2 * gross N inp type fixed x r p := by
  have small := fun b hb p => step_small (d b) p ε hε (hv b hb p) (hθ b hb p) (hd b hb p)
  have hsec : ∀ c, c < N.T.nBus → ∀ q, ‖second (d r) (d c) p q‖ ≤ 17 * ε ^ 2 := fun c hc q =>
    second_small _ _ p q ε (hd r hr p) (hd c hc q) (small r hr p).2 (small c hc q).2
  choose e he1 he2 using fun k => given_expand inp type fixed (x r) (d r) k p
  have e2 : ∑ c ∈ Finset.range N.T.nBus, jacAct N inp type fixed x (fun c => phasor (x c)) r c (d c).cplx p =
      (∑ c ∈ Finset.range N.T.nBus, ∑ q, powerFlow (nodal N.T N.y.param r c) (phasor (x r)) (phasor (x c)) p q * star ((d c).cplx q)) +
        (taken N (fun c => phasor (x c)) r p * (d r).cplx p +
        (((onBus N.loadBus r).map fun k => (loadSlope inp (type k) (fixed k) k (x r).v).cplx p * (((d r).cplx p).re : ℂ)).sum +
        ((onBus N.sourceBus r).map fun k => (∑ q, powerFlow (yRef s (N.y1 k) (N.y0 k)) (phasor (x r)) (phasor (x r)) p q * star ((d r).cplx q)) -
          phasor (x r) p * star (physicalSource N inp (phasor (x r)) k p) * (d r).cplx p).sum)) := by
    rw [← Finset.sum_ite_eq_of_mem (Finset.range N.T.nBus) r
      (fun _ => taken N (fun c => phasor (x c)) r p * (d r).cplx p +
        (((onBus N.loadBus r).map fun k => (loadSlope inp (type k) (fixed k) k (x r).v).cplx p * (((d r).cplx p).re : ℂ)).sum +
        ((onBus N.sourceBus r).map fun k => (∑ q, powerFlow (yRef s (N.y1 k) (N.y0 k)) (phasor (x r)) (phasor (x r)) p q * star ((d r).cplx q)) -
          phasor (x r) p * star (physicalSource N inp (phasor (x r)) k p) * (d r).cplx p).sum)) (Finset.mem_range.mpr hr), ← Finset.sum_add_distrib]
    refine Finset.sum_congr rfl fun c _ => ?_
    unfold jacAct
    rw [Pi.add_apply]
    congr 1
    by_cases hrc : r = c
    · subst hrc
      rw [if_pos rfl, if_pos rfl, Pi.add_apply, Pi.add_apply, sum_apply_list, sum_apply_list]
      rfl
    · rw [if_neg hrc, if_neg hrc]
      rfl
  have hm : ∀ x : Nat → Polar s, mismatch N inp type fixed x r p = ((onBus N.loadBus r).map fun k => given inp type fixed (x r).v k p).sum +
      ((onBus N.sourceBus r).map fun k => (phasor (x r) * star (physicalSource N inp (phasor (x r)) k)) p).sum -
      taken N (fun c => phasor (x c)) r p := by
    intro x
    unfold mismatch
    rw [atBus_eq, atBus_eq, Pi.sub_apply, Pi.add_apply, sum_apply_list, sum_apply_list]
  have hsub : ∀ (l : List Nat) (f g h : Nat → ℂ), (l.map fun k => f k - g k + h k).sum = (l.map f).sum - (l.map g).sum + (l.map h).sum := by
    intro l f g h
    induction l with
    | nil => simp
    | cons a l ih => simp only [List.map_cons, List.sum_cons, ih]; ring
  rw [hm, hm, e2, taken_expand]
  rw [List.map_congr_left (fun k _ => he1 k), hsub, List.map_congr_left (fun k _ => source_expand N inp (x r) (d r) k p), hsub]
  set A := ((onBus N.loadBus r).map e).sum with hA
  set B := ((onBus N.sourceBus r).map fun k =>
    phasor (x r) p * star (dot s (yRef s (N.y1 k) (N.y0 k)) (spread s (inp.source k)) p) * (ratio (d r) p - 1 - (d r).cplx p) -
        ∑ q, powerFlow (yRef s (N.y1 k) (N.y0 k)) (phasor (x r)) (phasor (x r)) p q * second (d r) (d r) p q).sum with hB
  set C := ∑ c ∈ Finset.range N.T.nBus, ∑ q, powerFlow (nodal N.T N.y.param r c) (phasor (x r)) (phasor (x c)) p q * second (d r) (d c) p q with hC
  have hsum : ∀ a b c d e f g : ℂ, (a - b + A + (c - d + B) - (e + (f + g) + C)) - (a + c - e - (g + (f + (b + d)))) = A + B - C := by
    intros; ring
  rw [hsum]
  have hε2 : 0 ≤ ε ^ 2 := sq_nonneg _
  have bA : ‖A‖ ≤ 17 * ε ^ 2 * ((onBus N.loadBus r).map fun k => ‖given inp type fixed (x r).v k p‖).sum := by
    refine list_norm_le _ _ _ _ fun k _ => (he2 k).trans ?_
    have h1 := (small r hr p).1
    have h2 : (d r).v p ^ 2 ≤ ε ^ 2 := by
      rw [← sq_abs]
      exact pow_le_pow_left₀ (abs_nonneg _) h1 2
    nlinarith [norm_nonneg (given inp type fixed (x r).v k p), mul_le_mul_of_nonneg_left h2 (norm_nonneg (given inp type fixed (x r).v k p))]
  have bC : ‖C‖ ≤ 17 * ε ^ 2 * ∑ c ∈ Finset.range N.T.nBus, ∑ q, ‖phasor (x r) p‖ * ‖nodal N.T N.y.param r c p q‖ * ‖phasor (x c) q‖ := by
    rw [hC, Finset.mul_sum]
    refine (norm_sum_le _ _).trans (Finset.sum_le_sum fun c hc => ?_)
    rw [Finset.mul_sum]
    refine (norm_sum_le _ _).trans (Finset.sum_le_sum fun q _ => ?_)
    rw [norm_mul, powerFlow_norm, mul_comm (17 * ε ^ 2)]
    exact mul_le_mul_of_nonneg_left (hsec c (Finset.mem_range.mp hc) q) (by positivity)
  have bB : ‖B‖ ≤ 17 * ε ^ 2 * ((onBus N.sourceBus r).map fun k => ∑ q, ‖phasor (x r) p‖ * ‖yRef s (N.y1 k) (N.y0 k) p q‖ *
      (‖spread s (inp.source k) q‖ + ‖phasor (x r) q‖)).sum := by
    refine list_norm_le _ _ _ _ fun k _ => ?_
    refine (norm_sub_le _ _).trans ?_
    have h1 : ‖phasor (x r) p * star (dot s (yRef s (N.y1 k) (N.y0 k)) (spread s (inp.source k)) p) * (ratio (d r) p - 1 - (d r).cplx p)‖ ≤
        17 * ε ^ 2 * ∑ q, ‖phasor (x r) p‖ * ‖yRef s (N.y1 k) (N.y0 k) p q‖ * ‖spread s (inp.source k) q‖ := by
      rw [norm_mul, norm_mul, norm_star]
      have h2 : ‖dot s (yRef s (N.y1 k) (N.y0 k)) (spread s (inp.source k)) p‖ ≤ ∑ q, ‖yRef s (N.y1 k) (N.y0 k) p q‖ * ‖spread s (inp.source k) q‖ := by
        rw [dot_apply]
        refine (norm_sum_le _ _).trans (Finset.sum_le_sum fun q _ => ?_)
        rw [norm_mul]
      have h3 : ‖phasor (x r) p‖ * ‖dot s (yRef s (N.y1 k) (N.y0 k)) (spread s (inp.source k)) p‖ ≤
          ∑ q, ‖phasor (x r) p‖ * ‖yRef s (N.y1 k) (N.y0 k) p q‖ * ‖spread s (inp.source k) q‖ := by
        refine (mul_le_mul_of_nonneg_left h2 (norm_nonneg _)).trans (le_of_eq ?_)
        rw [Finset.mul_sum]
        refine Finset.sum_congr rfl fun q _ => ?_
        ring
      have h4 : 0 ≤ ∑ q, ‖phasor (x r) p‖ * ‖yRef s (N.y1 k) (N.y0 k) p q‖ * ‖spread s (inp.source k) q‖ :=
        Finset.sum_nonneg fun q _ => by positivity
      calc _ ≤ (∑ q, ‖phasor (x r) p‖ * ‖yRef s (N.y1 k) (N.y0 k) p q‖ * ‖spread s (inp.source k) q‖) * (8 * ε ^ 2) :=
            mul_le_mul h3 (small r hr p).2 (norm_nonneg _) h4
        _ ≤ _ := by nlinarith
    have h5 : ‖∑ q, powerFlow (yRef s (N.y1 k) (N.y0 k)) (phasor (x r)) (phasor (x r)) p q * second (d r) (d r) p q‖ ≤
        17 * ε ^ 2 * ∑ q, ‖phasor (x r) p‖ * ‖yRef s (N.y1 k) (N.y0 k) p q‖ * ‖phasor (x r) q‖ := by
      rw [Finset.mul_sum]
      refine (norm_sum_le _ _).trans (Finset.sum_le_sum fun q _ => ?_)
      rw [norm_mul, powerFlow_norm, mul_comm (17 * ε ^ 2)]
      exact mul_le_mul_of_nonneg_left (hsec r hr q) (by positivity)
    refine (add_le_add h1 h5).trans (le_of_eq ?_)
    rw [← mul_add, ← Finset.sum_add_distrib]
    congr 1
    refine Finset.sum_congr rfl fun q _ => ?_
    ring
  have hg : gross N inp type fixed x r p = (∑ c ∈ Finset.range N.T.nBus, ∑ q, ‖phasor (x r) p‖ * ‖nodal N.T N.y.param r c p q‖ * ‖phasor (x c) q‖) +
      ((onBus N.loadBus r).map fun k => ‖given inp type fixed (x r).v k p‖).sum + ((onBus N.sourceBus r).map fun k =>
      ∑ q, ‖phasor (x r) p‖ * ‖yRef s (N.y1 k) (N.y0 k) p q‖ * (‖spread s (inp.source k) q‖ + ‖phasor (x r) q‖)).sum := by
    unfold gross
    rw [← onBus_sum_real, ← onBus_sum_real]
  rw [hg]
  calc ‖A + B - C‖ ≤ ‖A‖ + ‖B‖ + ‖C‖ := (norm_sub_le _ _).trans (by linarith [norm_add_le A B])
    _ ≤ _ := by linarith

end PGM.NewtonPf
