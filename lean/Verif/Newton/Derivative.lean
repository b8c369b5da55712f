import Verif.Newton.Solve
import Mathlib.Analysis.Calculus.Deriv.Star
import Mathlib.Analysis.Calculus.Deriv.Mul
import Mathlib.Analysis.Calculus.Deriv.Pow
import Mathlib.Analysis.SpecialFunctions.ExpDeriv

/-!
# The Jacobian is the derivative of the power mismatch

Lemmas for C54.
-/

namespace PGM.NewtonPf

open PGM.YBus PGM.Lu PGM.PowerFlow PGM.Component

variable {s : Symm}

theorem sum_apply_list {A : Type} (l : List A) (f : A → CV s) (p : Fin s.phases) : (l.map f).sum p = (l.map fun k => f k p).sum := by
  induction l with
  | nil => rfl
  | cons a l ih => simp only [List.map_cons, List.sum_cons, Pi.add_apply, ih]

theorem hasDerivAt_list {A : Type} (l : List A) (f : A → ℝ → ℂ) (f' : A → ℂ) (t : ℝ) (h : ∀ k ∈ l, HasDerivAt (f k) (f' k) t) :
    HasDerivAt (fun t => (l.map fun k => f k t).sum) (l.map f').sum t := by
  induction l with
  | nil => exact hasDerivAt_const t (0 : ℂ)
  | cons a l ih =>
    simp only [List.map_cons, List.sum_cons]
    exact (h a (by simp)).add (ih fun k hk => h k (by simp [hk]))

theorem along_zero (x d : Nat → Polar s) : along x d 0 = x := by
  funext b
  simp [along]

theorem along_one (x d : Nat → Polar s) (b : Nat) : along x d 1 b = updatePolar (x b) (d b) := by
  simp [along, updatePolar]

theorem rhsOf_eq (N : PfNet s) (inp : PfInput s) (type : Nat → LoadType) (fixed : Nat → Option (RV s ℝ)) (x : Nat → Polar s) (r : Nat) :
    rhsOf N inp type fixed x (fun c => phasor (x c)) r = mismatch N inp type fixed x r := by
  unfold rhsOf mismatch
  rw [atBus_eq, atBus_eq]

theorem deriv_phasor (x d : Nat → Polar s) (c : Nat) (p : Fin s.phases) :
    HasDerivAt (fun t => phasor (along x d t c) p) (phasor (x c) p * (d c).cplx p) 0 := by
  unfold phasor along Polar.cplx
  simp only
  have h1 : HasDerivAt (fun t : ℝ => (((x c).v p + t * ((x c).v p * (d c).v p) : ℝ) : ℂ)) (((x c).v p * (d c).v p : ℝ) : ℂ) 0 := by
    have := ((hasDerivAt_id (0 : ℝ)).mul_const ((x c).v p * (d c).v p)).const_add ((x c).v p)
    simpa using this.ofReal_comp
  have h2 : HasDerivAt (fun t : ℝ => Complex.I * (((x c).theta p + t * (d c).theta p : ℝ) : ℂ)) (Complex.I * ((d c).theta p : ℂ)) 0 := by
    have := ((hasDerivAt_id (0 : ℝ)).mul_const ((d c).theta p)).const_add ((x c).theta p)
    simpa using this.ofReal_comp.const_mul Complex.I
  have h3 := h1.mul h2.cexp
  refine HasDerivAt.congr_deriv h3 (Eq.symm ?_)
  simp
  ring

theorem dot_apply (y : CM s) (u : CV s) (p : Fin s.phases) : dot s y u p = ∑ q, y p q * u q := rfl

theorem deriv_dot (y : CM s) (f : ℝ → CV s) (f' : CV s) (h : ∀ q, HasDerivAt (fun t => f t q) (f' q) 0) (p : Fin s.phases) :
    HasDerivAt (fun t => dot s y (f t) p) (dot s y f' p) 0 := by
  simp only [dot_apply]
  exact HasDerivAt.fun_sum fun q _ => (h q).const_mul (y p q)

theorem star_dot_flow (y : CM s) (ui uj η : CV s) (p : Fin s.phases) :
    ui p * star (dot s y (uj * η) p) = ∑ q, powerFlow y ui uj p q * star (η q) := by
  rw [dot_apply, star_sum, Finset.mul_sum]
  refine Finset.sum_congr rfl fun q _ => ?_
  simp only [powerFlow, Pi.mul_apply, star_mul']
  ring

theorem deriv_taken {N : PfNet s} (x d : Nat → Polar s) (r : Nat) (p : Fin s.phases) :
    HasDerivAt (fun t => taken N (fun c => phasor (along x d t c)) r p)
      (taken N (fun c => phasor (x c)) r p * (d r).cplx p + ∑ c ∈ Finset.range N.T.nBus,
        ∑ q, powerFlow (nodal N.T N.y.param r c) (phasor (x r)) (phasor (x c)) p q * star ((d c).cplx q)) 0 := by
  unfold taken
  have h1 := deriv_phasor x d r p
  have h2 : HasDerivAt (fun t => (∑ c ∈ Finset.range N.T.nBus, dot s (nodal N.T N.y.param r c) (phasor (along x d t c))) p)
      (∑ c ∈ Finset.range N.T.nBus, dot s (nodal N.T N.y.param r c) (phasor (x c) * (d c).cplx) p) 0 := by
    simp only [Finset.sum_apply]
    exact HasDerivAt.fun_sum fun c _ => deriv_dot _ _ _ (fun q => deriv_phasor x d c q) p
  have h3 := h1.mul h2.star
  refine HasDerivAt.congr_deriv h3 (Eq.symm ?_)
  simp only [along_zero, Pi.mul_apply, Pi.star_apply]
  congr 1
  · ring
  rw [star_sum, Finset.mul_sum]
  refine Finset.sum_congr rfl fun c _ => ?_
  rw [star_dot_flow]

theorem deriv_given (inp : PfInput s) (type : Nat → LoadType) (fixed : Nat → Option (RV s ℝ)) (x d : Nat → Polar s) (r k : Nat)
    (p : Fin s.phases) :
    HasDerivAt (fun t => given inp type fixed (along x d t r).v k p)
      (-((loadSlope inp (type k) (fixed k) k (x r).v).cplx p * (((d r).cplx p).re : ℂ))) 0 := by
  have hre : ((d r).cplx p).re = (d r).v p := by simp [Polar.cplx]
  rw [hre]
  unfold given loadSlope
  cases fixed k with
  | some q =>
    refine HasDerivAt.congr_deriv (hasDerivAt_const (0 : ℝ) _) (Eq.symm ?_)
    simp [Power.cplx]
  | none =>
    have h1 : HasDerivAt (fun t : ℝ => (along x d t r).v p) ((x r).v p * (d r).v p) 0 := by
      unfold along
      simpa using ((hasDerivAt_id (0 : ℝ)).mul_const ((x r).v p * (d r).v p)).const_add ((x r).v p)
    have h0 : (along x d 0 r).v p = (x r).v p := by rw [along_zero]
    have hs : inp.sInj k p = ((inp.sInj k p).re : ℂ) + ((inp.sInj k p).im : ℂ) * Complex.I := (Complex.re_add_im _).symm
    cases type k with
    | constPq =>
      simp only [factor]
      refine HasDerivAt.congr_deriv (hasDerivAt_const (0 : ℝ) _) (Eq.symm ?_)
      simp [Power.cplx]
    | constY =>
      simp only [factor]
      have h2 := ((h1.pow 2).ofReal_comp).const_mul (inp.sInj k p)
      refine HasDerivAt.congr_deriv h2 (Eq.symm ?_)
      rw [h0]
      simp only [Power.cplx]
      conv_rhs => rw [hs]
      push_cast
      ring
    | constI =>
      simp only [factor]
      have h2 := (h1.ofReal_comp).const_mul (inp.sInj k p)
      refine HasDerivAt.congr_deriv h2 (Eq.symm ?_)
      simp only [Power.cplx]
      conv_rhs => rw [hs]
      push_cast
      ring

theorem deriv_source (N : PfNet s) (inp : PfInput s) (x d : Nat → Polar s) (r k : Nat) (p : Fin s.phases) :
    HasDerivAt (fun t => (phasor (along x d t r) * star (physicalSource N inp (phasor (along x d t r)) k)) p)
      (-((∑ q, powerFlow (yRef s (N.y1 k) (N.y0 k)) (phasor (x r)) (phasor (x r)) p q * star ((d r).cplx q)) -
        phasor (x r) p * star (physicalSource N inp (phasor (x r)) k p) * (d r).cplx p)) 0 := by
  unfold physicalSource
  have h1 := deriv_phasor x d r p
  have h2 : HasDerivAt (fun t => dot s (yRef s (N.y1 k) (N.y0 k)) (spread s (inp.source k) - phasor (along x d t r)) p)
      (dot s (yRef s (N.y1 k) (N.y0 k)) (-(phasor (x r) * (d r).cplx)) p) 0 :=
    deriv_dot _ _ _ (fun q => (deriv_phasor x d r q).const_sub _) p
  have h3 := h1.mul h2.star
  refine HasDerivAt.congr_deriv h3 (Eq.symm ?_)
  simp only [along_zero]
  rw [map_neg, Pi.neg_apply, star_neg, mul_neg, star_dot_flow]
  ring

/-- **The Jacobian is the derivative of the power mismatch, along every direction.** -/
theorem jacobian_derivative (N : PfNet s) (inp : PfInput s) (type : Nat → LoadType) (fixed : Nat → Option (RV s ℝ)) (x d : Nat → Polar s)
    (r : Nat) (hr : r < N.T.nBus) (p : Fin s.phases) :
    HasDerivAt (fun t => mismatch N inp type fixed (along x d t) r p)
      (-∑ c ∈ Finset.range N.T.nBus, jacAct N inp type fixed x (fun c => phasor (x c)) r c (d c).cplx p) 0 := by
  have e1 : (fun t => mismatch N inp type fixed (along x d t) r p) = fun t =>
      ((onBus N.loadBus r).map fun k => given inp type fixed (along x d t r).v k p).sum +
      ((onBus N.sourceBus r).map fun k => (phasor (along x d t r) * star (physicalSource N inp (phasor (along x d t r)) k)) p).sum -
      taken N (fun c => phasor (along x d t c)) r p := by
    funext t
    unfold mismatch
    rw [atBus_eq, atBus_eq, Pi.sub_apply, Pi.add_apply, sum_apply_list, sum_apply_list]
  rw [e1]
  have h1 := hasDerivAt_list (onBus N.loadBus r) (fun k t => given inp type fixed (along x d t r).v k p) _ 0
    (fun k _ => deriv_given inp type fixed x d r k p)
  have h2 := hasDerivAt_list (onBus N.sourceBus r)
    (fun k t => (phasor (along x d t r) * star (physicalSource N inp (phasor (along x d t r)) k)) p) _ 0
    (fun k _ => deriv_source N inp x d r k p)
  have h3 := (h1.add h2).sub (deriv_taken (N := N) x d r p)
  refine HasDerivAt.congr_deriv h3 (Eq.symm ?_)
  have e2 : ∀ c, jacAct N inp type fixed x (fun c => phasor (x c)) r c (d c).cplx p =
      (∑ q, powerFlow (nodal N.T N.y.param r c) (phasor (x r)) (phasor (x c)) p q * star ((d c).cplx q)) + if r = c then
        (taken N (fun c => phasor (x c)) r p * (d r).cplx p +
        (((onBus N.loadBus r).map fun k => (loadSlope inp (type k) (fixed k) k (x r).v).cplx p * (((d r).cplx p).re : ℂ)).sum +
        ((onBus N.sourceBus r).map fun k => (∑ q, powerFlow (yRef s (N.y1 k) (N.y0 k)) (phasor (x r)) (phasor (x r)) p q * star ((d r).cplx q)) -
          phasor (x r) p * star (physicalSource N inp (phasor (x r)) k p) * (d r).cplx p).sum)) else 0 := by
    intro c
    unfold jacAct
    rw [Pi.add_apply]
    congr 1
    by_cases hrc : r = c
    · subst hrc
      rw [if_pos rfl, if_pos rfl, Pi.add_apply, Pi.add_apply, sum_apply_list, sum_apply_list]
      rfl
    · rw [if_neg hrc, if_neg hrc]
      rfl
  rw [Finset.sum_congr rfl fun c _ => e2 c, Finset.sum_add_distrib, Finset.sum_ite_eq, if_pos (Finset.mem_range.mpr hr)]
  have hneg : ∀ (l : List Nat) (f : Nat → ℂ), (l.map fun k => -f k).sum = -(l.map f).sum := by
    intro l f
    induction l with
    | nil => simp
    | cons a l ih => simp only [List.map_cons, List.sum_cons, ih]; ring
  rw [hneg, hneg]
  ring

end PGM.NewtonPf
