import Verif.Newton.Run

/-!
# The mismatch that a converged run leaves

Lemmas for C54 and C17.
-/

namespace PGM.NewtonPf

open PGM.YBus PGM.Lu PGM.PowerFlow PGM.Component

variable {s : Symm}

theorem list_real_le {A : Type} (l : List A) (f g : A → ℝ) (c : ℝ) (h : ∀ k ∈ l, f k ≤ c * g k) : (l.map f).sum ≤ c * (l.map g).sum := by
  induction l with
  | nil => simp
  | cons a l ih =>
    simp only [List.map_cons, List.sum_cons]
    rw [mul_add]
    exact add_le_add (h a (by simp)) (ih fun k hk => h k (by simp [hk]))

theorem given_before (inp : PfInput s) (type : Nat → LoadType) (fixed : Nat → Option (RV s ℝ)) (x d : Polar s) (k : Nat) (p : Fin s.phases)
    (hd : |d.v p| ≤ 1 / 2) : ‖given inp type fixed x.v k p‖ ≤ 4 * ‖given inp type fixed (updatePolar x d).v k p‖ := by
  obtain ⟨h1, h2⟩ := abs_le.mp hd
  unfold given
  cases fixed k with
  | some q => linarith [norm_nonneg (((inp.sInj k p).re : ℂ) + (q p : ℂ) * Complex.I)]
  | none =>
    simp only
    rw [norm_mul, norm_mul]
    have hf : ‖(factor (type k) (x.v p) : ℂ)‖ ≤ 4 * ‖(factor (type k) ((updatePolar x d).v p) : ℂ)‖ := by
      rw [Complex.norm_real, Complex.norm_real, Real.norm_eq_abs, Real.norm_eq_abs]
      have e : (updatePolar x d).v p = x.v p * (1 + d.v p) := by
        simp only [updatePolar]
        ring
      rw [e]
      cases type k with
      | constPq => simp [factor]
      | constY =>
        simp only [factor]
        rw [abs_of_nonneg (sq_nonneg _), abs_of_nonneg (sq_nonneg _), mul_pow]
        nlinarith [sq_nonneg (x.v p), mul_nonneg (sq_nonneg (x.v p)) (show (0 : ℝ) ≤ 4 * (1 + d.v p) ^ 2 - 1 by nlinarith)]
      | constI =>
        simp only [factor]
        rw [abs_mul, abs_of_pos (show (0 : ℝ) < 1 + d.v p by linarith)]
        nlinarith [abs_nonneg (x.v p)]
    nlinarith [norm_nonneg (inp.sInj k p), mul_le_mul_of_nonneg_left hf (norm_nonneg (inp.sInj k p))]

theorem gross_before {N : PfNet s} (inp : PfInput s) (type : Nat → LoadType) (fixed : Nat → Option (RV s ℝ)) (x d : Nat → Polar s) (r : Nat)
    (hr : r < N.T.nBus) (p : Fin s.phases) (hd : ∀ b, b < N.T.nBus → ∀ p, |(d b).v p| ≤ 1 / 2) :
    gross N inp type fixed x r p ≤ 4 * gross N inp type fixed (fun b => updatePolar (x b) (d b)) r p := by
  have hu : ∀ b, b < N.T.nBus → ∀ p, ‖phasor (x b) p‖ ≤ 2 * ‖phasor (updatePolar (x b) (d b)) p‖ := by
    intro b hb p
    obtain ⟨h1, h2⟩ := abs_le.mp (hd b hb p)
    rw [phasor_update, Pi.mul_apply, norm_mul, ratio_norm _ _ (by linarith)]
    nlinarith [norm_nonneg (phasor (x b) p)]
  unfold gross
  rw [mul_add, mul_add]
  refine add_le_add (add_le_add ?_ ?_) ?_
  · rw [Finset.mul_sum]
    refine Finset.sum_le_sum fun c hc => ?_
    rw [Finset.mul_sum]
    refine Finset.sum_le_sum fun q _ => ?_
    have h1 := hu r hr p
    have h2 := hu c (Finset.mem_range.mp hc) q
    set a := ‖phasor (x r) p‖
    set a' := ‖phasor (updatePolar (x r) (d r)) p‖
    set b := ‖phasor (x c) q‖
    set b' := ‖phasor (updatePolar (x c) (d c)) q‖
    have ha : 0 ≤ a' := norm_nonneg _
    have hb : 0 ≤ b := norm_nonneg _
    have e : a * b ≤ (2 * a') * (2 * b') := mul_le_mul h1 h2 hb (by linarith)
    nlinarith [norm_nonneg (nodal N.T N.y.param r c p q), mul_le_mul_of_nonneg_left e (norm_nonneg (nodal N.T N.y.param r c p q))]
  · refine list_real_le _ _ _ _ fun k _ => ?_
    split_ifs
    · exact given_before inp type fixed (x r) (d r) k.2 p (hd r hr p)
    · simp
  · refine list_real_le _ _ _ _ fun k _ => ?_
    split_ifs
    · rw [Finset.mul_sum]
      refine Finset.sum_le_sum fun q _ => ?_
      have h1 := hu r hr p
      have h2 := hu r hr q
      set a := ‖phasor (x r) p‖
      set a' := ‖phasor (updatePolar (x r) (d r)) p‖
      set b := ‖phasor (x r) q‖
      set b' := ‖phasor (updatePolar (x r) (d r)) q‖
      set z := ‖spread s (inp.source k.2) q‖
      have ha : 0 ≤ a' := norm_nonneg _
      have hb : 0 ≤ b := norm_nonneg _
      have hz : 0 ≤ z := norm_nonneg _
      have e : a * (z + b) ≤ (2 * a') * (2 * (z + b')) := mul_le_mul h1 (by linarith) (by linarith) (by linarith)
      nlinarith [norm_nonneg (yRef s (N.y1 k.2) (N.y0 k.2) p q), mul_le_mul_of_nonneg_left e (norm_nonneg (yRef s (N.y1 k.2) (N.y0 k.2) p q))]
    · simp

/-- After a Newton step that changed no voltage by more than `t`, where all voltages are at least `m + t`. -/
theorem step_bound {N : PfNet s} (inp : PfInput s) (type : Nat → LoadType) (fixed : Nat → Option (RV s ℝ)) (pv : Nat → Prop) (x d : Nat → Polar s)
    (hs : NewtonStep N inp type fixed pv x d) (m t : ℝ) (hm : 0 < m) (hmt : 2 * t ≤ m)
    (hv : ∀ b, b < N.T.nBus → ∀ p, -1 < (d b).v p) (hθ : ∀ b, b < N.T.nBus → ∀ p, |(d b).theta p| ≤ Real.pi)
    (hu : ∀ b, b < N.T.nBus → ∀ p, m + t ≤ ‖phasor (updatePolar (x b) (d b)) p‖)
    (hd : ∀ b, b < N.T.nBus → ∀ p, ‖phasor (updatePolar (x b) (d b)) p - phasor (x b) p‖ ≤ t) (r : Nat) (hr : r < N.T.nBus) (p : Fin s.phases) :
    |(mismatch N inp type fixed (fun b => updatePolar (x b) (d b)) r p).re| ≤
      68 * (t / m) ^ 2 * gross N inp type fixed (fun b => updatePolar (x b) (d b)) r p ∧
    (¬ pv r → ‖mismatch N inp type fixed (fun b => updatePolar (x b) (d b)) r p‖ ≤
      68 * (t / m) ^ 2 * gross N inp type fixed (fun b => updatePolar (x b) (d b)) r p) ∧
    (pv r → ∀ q, (updatePolar (x r) (d r)).v q = (x r).v q) := by
  have hε : t / m ≤ 1 / 2 := by
    rw [div_le_div_iff₀ hm (by norm_num)]
    linarith
  have hprev : ∀ b, b < N.T.nBus → ∀ p, m ≤ ‖phasor (x b) p‖ := by
    intro b hb p
    have e := norm_sub_norm_le (phasor (updatePolar (x b) (d b)) p) (phasor (x b) p)
    linarith [hu b hb p, hd b hb p]
  have hratio : ∀ b, b < N.T.nBus → ∀ p, ‖ratio (d b) p - 1‖ ≤ t / m := by
    intro b hb p
    have e1 := hd b hb p
    rw [phasor_update, Pi.mul_apply] at e1
    have e2 : phasor (x b) p * ratio (d b) p - phasor (x b) p = phasor (x b) p * (ratio (d b) p - 1) := by ring
    rw [e2, norm_mul] at e1
    rw [le_div_iff₀ hm, mul_comm]
    exact (mul_le_mul_of_nonneg_right (hprev b hb p) (norm_nonneg _)).trans e1
  have hsmall : ∀ b, b < N.T.nBus → ∀ p, |(d b).v p| ≤ 1 / 2 := fun b hb p =>
    (step_small (d b) p (t / m) hε (hv b hb p) (hθ b hb p) (hratio b hb p)).1.trans hε
  have key := mismatch_after (N := N) inp type fixed x d (t / m) hε hv hθ hratio r hr p
  have hg := gross_before (N := N) inp type fixed x d r hr p hsmall
  have hbound : 17 * (t / m) ^ 2 * gross N inp type fixed x r p ≤ 68 * (t / m) ^ 2 * gross N inp type fixed (fun b => updatePolar (x b) (d b)) r p := by
    nlinarith [sq_nonneg (t / m), mul_le_mul_of_nonneg_left hg (sq_nonneg (t / m))]
  have hrow := (rowEq_iff inp type fixed pv x d).mpr hs r hr
  rw [RowEq, rhsOf_eq] at hrow
  obtain ⟨r1, r2, r3⟩ := hrow
  refine ⟨?_, fun hp => ?_, fun hp q => ?_⟩
  · have e := (Complex.abs_re_le_norm _).trans (key.trans hbound)
    rw [Complex.sub_re, Complex.sub_re, r1 p, sub_self, sub_zero] at e
    exact e
  · have e : mismatch N inp type fixed x r p - ∑ c ∈ Finset.range N.T.nBus, jacAct N inp type fixed x (fun c => phasor (x c)) r c (d c).cplx p = 0 := by
      rw [sub_eq_zero]
      exact (Complex.ext (r1 p) (r2 hp p)).symm
    rw [e, sub_zero] at key
    exact key.trans hbound
  · have := r3 hp q
    have e : ((d r).cplx q).re = (d r).v q := by simp [Polar.cplx]
    rw [e] at this
    simp only [updatePolar]
    linarith

/-- What Kirchhoff's law lacks at a bus without sources is the mismatch. -/
theorem kirchhoff_mismatch {N : PfNet s} (hN : N.Valid) (inp : PfInput s) (type : Nat → LoadType) (alloc : Nat → PfOutput s → List (Nat × CV s))
    (ha : AllocOk N alloc) (fixed : Nat → Option (RV s ℝ)) (x : Nat → Polar s) (b : Nat) (hb : b < N.T.nBus) (hsrc : b ∉ N.sourceBus)
    (hno : ∀ o, alloc b o = []) (hfix : ∀ k, N.loadBus[k]? = some b → fixed k = none)
    (hpos : ∀ k, N.loadBus[k]? = some b → type k = .constI → ∀ p, 0 ≤ (x b).v p) (hu : ∀ p, phasor (x b) p ≠ 0) (p : Fin s.phases) :
    let out := pfResult N inp type alloc (fun c => phasor (x c))
    ‖(intoBranches N.T (out.branch.map fun x => (x.iF, x.iT)) b - fromShunts N.T (out.shunt.map (·.cur)) b -
      atBus N.loadBus (fun k => (out.load k).cur) b) p‖ = ‖mismatch N inp type fixed x b p‖ / ‖phasor (x b) p‖ := by
  simp only
  obtain ⟨_, _, p3, p4, _, _⟩ := pfResult_bus N inp type alloc ha (fun c => phasor (x c)) b hb
  obtain ⟨_, q2, q3⟩ := reported_powers inp type alloc ha (fun c => phasor (x c)) b hb hu
  set out := pfResult N inp type alloc (fun c => phasor (x c))
  have hflow : intoBranches N.T (out.branch.map fun x => (x.iF, x.iT)) b - fromShunts N.T (out.shunt.map (·.cur)) b =
      ∑ c ∈ Finset.range N.T.nBus, dot s (nodal N.T N.y.param b c) (phasor (x c)) := by
    rw [p3, p4, branch_currents, shunt_currents N hN.topo]
    have e1 := busCurrent_is_flow_of hN.topo hN.structure_ (coherent_of_valid hN) (dot s) (fun c => phasor (x c)) b hb
    have e2 := busCurrent_eq hN.topo hN.structure_ (coherent_of_valid hN) (dot s) (fun c => phasor (x c)) b hb
    rw [← e2, e1]
  have hnorm : ∀ p, ‖phasor (x b) p‖ = |(x b).v p| := by
    intro p
    simp only [phasor]
    rw [norm_mul, mul_comm Complex.I, Complex.norm_exp_ofReal_mul_I, mul_one, Complex.norm_real, Real.norm_eq_abs]
  have hload : ∀ k ∈ onBus N.loadBus b, (out.load k).cur p = star (given inp type fixed (x b).v k p / phasor (x b) p) := by
    intro k hk
    have hk' := mem_onBus.mp hk
    have e1 := congrFun (q2 k hk') p
    have e2 := q3 k hk' (fun o g hg => by rw [hno o] at hg; simp at hg) p
    have hg : given inp type fixed (x b).v k p = (out.load k).pow p := by
      rw [e2]
      unfold given
      rw [hfix k hk']
      simp only
      rw [hnorm p]
      have hfac : factor (type k) ((x b).v p) = factor (type k) |(x b).v p| := by
        cases ht : type k with
        | constPq => rfl
        | constY => simp only [factor, sq_abs]
        | constI =>
          simp only [factor]
          exact (abs_of_nonneg (hpos k hk' ht p)).symm
      rw [hfac]
    rw [hg, e1, Pi.mul_apply, Pi.star_apply, mul_div_assoc, mul_comm, div_mul_cancel₀ _ (hu p), star_star]
  have hsrc' : onBus N.sourceBus b = [] := by
    rw [List.eq_nil_iff_forall_not_mem]
    intro k hk
    exact hsrc (List.mem_of_getElem? (mem_onBus.mp hk))
  have hsum : ((onBus N.loadBus b).map fun k => (out.load k).cur p).sum =
      star (((onBus N.loadBus b).map fun k => given inp type fixed (x b).v k p).sum / phasor (x b) p) := by
    rw [List.map_congr_left hload]
    generalize onBus N.loadBus b = l
    induction l with
    | nil => simp
    | cons a l ih => simp only [List.map_cons, List.sum_cons, ih, add_div, star_add]
  rw [hflow, Pi.sub_apply, atBus_eq, sum_apply_list, hsum]
  have hm : mismatch N inp type fixed x b p = ((onBus N.loadBus b).map fun k => given inp type fixed (x b).v k p).sum -
      phasor (x b) p * star ((∑ c ∈ Finset.range N.T.nBus, dot s (nodal N.T N.y.param b c) (phasor (x c))) p) := by
    unfold mismatch taken
    rw [atBus_eq, atBus_eq, hsrc', Pi.sub_apply, Pi.add_apply, sum_apply_list]
    simp
  rw [← norm_div, hm, sub_div, mul_comm, mul_div_assoc, div_self (hu p), mul_one, norm_sub_rev, ← norm_star, star_sub, star_star]

end PGM.NewtonPf
