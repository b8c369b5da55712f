import Verif.Newton.Quadratic

/-!
# Runs of the Newton-Raphson method

Lemmas for C54: what an iteration does to the state, and the linear start.
-/

namespace PGM.NewtonPf

open PGM.YBus PGM.Lu PGM.PowerFlow PGM.Component

variable {s : Symm}

/-! ## The linear start -/

theorem act_linear (y : CM s) (η : CV s) : act (linearBlock y) η = dot s y (fun p => Complex.I * star (η p)) := by
  funext p
  rw [dot_apply]
  unfold act
  refine Finset.sum_congr rfl fun q _ => ?_
  simp only [linearBlock]
  apply Complex.ext
  · simp
    ring
  · simp
    ring

theorem act_start (b : Jac s) (y η : CV s) :
    act ⟨addDiag b.h fun p => (y p).re, addDiag b.n fun p => -(y p).im, addDiag b.m fun p => (y p).im, addDiag b.l fun p => (y p).re⟩ η =
      act b η + fun p => y p * (Complex.I * star (η p)) := by
  funext p
  rw [Pi.add_apply]
  unfold act
  refine Eq.trans ?_ (sum_diag _ p (y p * (Complex.I * star (η p)))).symm
  refine Finset.sum_congr rfl fun q _ => ?_
  simp only [addDiag_apply]
  by_cases hpq : p = q
  · subst hpq
    simp only [if_true]
    apply Complex.ext
    · simp
      ring
    · simp
      ring
  · simp [hpq]

theorem startLoad_step (N : PfNet s) (inp : PfInput s) (g : LoadInfo s) (bus : Nat) :
    DiagStep N bus (fun k η p => (-star (startPower inp g k)) p * (Complex.I * star (η p))) (fun _ => 0) (addStartLoad N inp g bus) := by
  intro x k
  unfold addStartLoad
  simp only
  refine ⟨List.length_modify .., fun j hj => modify_ne (Ne.symm hj) _, fun b hb => ?_, fun _ _ => trivial, by simp⟩
  rw [modify_self rfl, hb]
  exact ⟨_, rfl, fun η => act_start b _ η⟩

theorem startSource_step (N : PfNet s) (inp : PfInput s) (bus : Nat) :
    DiagStep N bus (fun k η => dot s (yRef s (N.y1 k) (N.y0 k)) (fun p => Complex.I * star (η p)))
      (fun k => dot s (yRef s (N.y1 k) (N.y0 k)) (spread s (inp.source k))) (addStartSource N inp bus) := by
  intro x k
  unfold addStartSource
  simp only
  refine ⟨List.length_modify .., fun j hj => modify_ne (Ne.symm hj) _, fun b hb => ?_, fun j hj => by simp [hj], ?_⟩
  · rw [modify_self rfl, hb]
    refine ⟨_, rfl, fun η => ?_⟩
    rw [← act_linear, ← act_add]
  · rw [Function.update_self]
    funext p
    simp only [Power.cplx, Pi.add_apply]
    conv_rhs => rw [← Complex.re_add_im (dot s (yRef s (N.y1 k) (N.y0 k)) (spread s (inp.source k)) p)]
    push_cast
    ring

/-- What an entry of the matrix of the start does. -/
noncomputable def startAct (N : PfNet s) (inp : PfInput s) (g : LoadInfo s) (r c : Nat) (η : CV s) : CV s :=
  dot s (nodal N.T N.y.param r c) (fun p => Complex.I * star (η p)) +
    if r = c then ((onBus N.loadBus r).map fun k p => (-star (startPower inp g k)) p * (Complex.I * star (η p))).sum +
      ((onBus N.sourceBus r).map fun k => dot s (yRef s (N.y1 k) (N.y0 k)) (fun p => Complex.I * star (η p))).sum else 0

theorem start_get {N : PfNet s} (hN : N.Valid) (inp : PfInput s) (g : LoadInfo s) :
    Acts N (startSys N inp g) (startAct N inp g) ∧ ∀ r, r < N.T.nBus →
      ((startSys N inp g).pq r).cplx = ((onBus N.sourceBus r).map fun k => dot s (yRef s (N.y1 k) (N.y0 k)) (spread s (inp.source k))).sum := by
  obtain ⟨I, D, E⟩ := correct_structure hN
  set gs : Sys s → Nat → Sys s := fun x bus => (onBus N.sourceBus bus).foldl (addStartSource N inp bus)
    ((onBus N.loadBus bus).foldl (addStartLoad N inp g bus) x) with hgs
  have spec : ∀ x r, (gs x r).jac.length = x.jac.length ∧ (∀ j, j ≠ N.S.diagLu[r]?.getD 0 → (gs x r).jac[j]? = x.jac[j]?) ∧
      (∀ b, x.jac[N.S.diagLu[r]?.getD 0]? = some b → ∃ b', (gs x r).jac[N.S.diagLu[r]?.getD 0]? = some b' ∧
        ∀ η, act b' η = act b η + (((onBus N.loadBus r).map fun k p => (-star (startPower inp g k)) p * (Complex.I * star (η p))).sum +
          ((onBus N.sourceBus r).map fun k => dot s (yRef s (N.y1 k) (N.y0 k)) (fun p => Complex.I * star (η p))).sum)) ∧
      (∀ j, j ≠ r → (gs x r).pq j = x.pq j) ∧
      ((gs x r).pq r).cplx = (x.pq r).cplx + ((onBus N.sourceBus r).map fun k => dot s (yRef s (N.y1 k) (N.y0 k)) (spread s (inp.source k))).sum := by
    intro x r
    obtain ⟨a1, a2, a3, a4, a5⟩ := diag_fold (startLoad_step N inp g r) (onBus N.loadBus r) x
    obtain ⟨b1, b2, b3, b4, b5⟩ := diag_fold (startSource_step N inp r) (onBus N.sourceBus r) ((onBus N.loadBus r).foldl (addStartLoad N inp g r) x)
    refine ⟨b1.trans a1, fun j hj => (b2 j hj).trans (a2 j hj), fun b hb => ?_, fun j hj => (b4 j hj).trans (a4 j hj), ?_⟩
    · obtain ⟨b', h1, h2⟩ := a3 b hb
      obtain ⟨b'', h3, h4⟩ := b3 b' h1
      exact ⟨b'', h3, fun η => by rw [h4, h2, add_assoc]⟩
    · rw [hgs]
      simp only
      rw [b5, a5]
      simp
  have hloc : RowStep N gs := by
    intro x r hr
    obtain ⟨a1, a2, _, a4, _⟩ := spec x r
    exact ⟨a1, fun r' hr' hne => ⟨a4 r' hne, fun c k hk => a2 k (Ne.symm (other_entry hN hr hr' hne hk))⟩⟩
  obtain ⟨n1, n2⟩ := rows_loop hloc (fun _ => false) (List.range N.T.nBus) List.nodup_range (fun r hr => List.mem_range.mp hr)
    ⟨linearCopy N, fun _ => ⟨0, 0⟩⟩
  have hst : startSys N inp g = (List.range N.T.nBus).foldl (fun x r => if (fun _ : Nat => false) r then x else gs x r)
      ⟨linearCopy N, fun _ => ⟨0, 0⟩⟩ := rfl
  rw [← hst] at n1 n2
  have hlen : (linearCopy N).length = N.S.colIndicesLu.length := by simp [linearCopy]
  have hcopy : ∀ r c k, EntryAt N.S.rowIndptrLu N.S.colIndicesLu r c k → ∃ b, (linearCopy N)[k]? = some b ∧
      ∀ η, act b η = dot s (nodal N.T N.y.param r c) (fun p => Complex.I * star (η p)) := by
    intro r c k hk
    obtain ⟨e1, _, e3⟩ := E r c k hk
    refine ⟨_, by unfold linearCopy; rw [List.getElem?_map, List.getElem?_range e3, Option.map_some], fun η => ?_⟩
    rw [← e1]
    cases hm : N.S.mapLuYBus[k]?.getD none with
    | none =>
      simp only [hm]
      have hz : act (Jac.zero : Jac s) η = 0 := by
        funext p
        simp [act, Jac.zero]
      rw [hz]
      simp
    | some d =>
      simp only [hm]
      exact act_linear _ _
  refine ⟨⟨n1.trans hlen, fun r hr c k hk => ?_, fun r c hl η => ?_⟩, fun r hr => ?_⟩
  · obtain ⟨x', h1, h2, h3⟩ := (n2 r hr).1 (List.mem_range.mpr hr) rfl
    obtain ⟨s1, s2, s3, s4, s5⟩ := spec x' r
    obtain ⟨b, c1, c2⟩ := hcopy r c k hk
    have c1' : x'.jac[k]? = some b := (h2.2 c k hk).trans c1
    by_cases hrc : r = c
    · have hd := (diag_entry hN hr hk).mpr hrc
      rw [← hd] at c1' hk ⊢
      obtain ⟨b', d1, d2⟩ := s3 b c1'
      refine ⟨b', (h3.2 c _ hk).trans d1, fun η => ?_⟩
      rw [d2, c2]
      unfold startAct
      rw [if_pos hrc]
    · have hd : N.S.diagLu[r]?.getD 0 ≠ k := fun e => hrc ((diag_entry hN hr hk).mp e)
      refine ⟨b, ((h3.2 c k hk).trans (s2 k (Ne.symm hd))).trans c1', fun η => ?_⟩
      rw [c2]
      unfold startAct
      rw [if_neg hrc, add_zero]
  · have hne : r ≠ c := fun e => hl (Or.inl (Or.inl e))
    unfold startAct
    rw [if_neg hne, nodal_zero _ (fun h' => hl (Or.inl h')), map_zero, add_zero]
    rfl
  · obtain ⟨x', h1, h2, h3⟩ := (n2 r hr).1 (List.mem_range.mpr hr) rfl
    obtain ⟨s1, s2, s3, s4, s5⟩ := spec x' r
    rw [h3.1, s5, h2.1]
    have : (⟨0, 0⟩ : Power s).cplx = 0 := by
      funext p
      simp [Power.cplx]
    rw [this, zero_add]

/-- The unknowns of the start as complex voltages. -/
noncomputable def rect (d : Polar s) : CV s := fun p => (d.theta p : ℂ) + (d.v p : ℂ) * Complex.I

theorem rect_eq (d : Polar s) : (fun p => Complex.I * star (d.cplx p)) = rect d := by
  funext p
  simp only [rect, Polar.cplx]
  apply Complex.ext <;> simp

theorem start_rows (N : PfNet s) (inp : PfInput s) (g : LoadInfo s) (x : Nat → Polar s) (r : Nat) (hr : r < N.T.nBus) :
    ∑ c ∈ Finset.range N.T.nBus, startAct N inp g r c (x c).cplx =
      ((onBus N.sourceBus r).map fun k => dot s (yRef s (N.y1 k) (N.y0 k)) (spread s (inp.source k))).sum ↔
    atBus N.sourceBus (physicalSource N inp (rect (x r))) r + atBus N.loadBus (fun k => star (startPower inp g k) * rect (x r)) r =
      ∑ c ∈ Finset.range N.T.nBus, dot s (nodal N.T N.y.param r c) (rect (x c)) := by
  have e1 : ∑ c ∈ Finset.range N.T.nBus, startAct N inp g r c (x c).cplx =
      ∑ c ∈ Finset.range N.T.nBus, dot s (nodal N.T N.y.param r c) (rect (x c)) +
      (((onBus N.loadBus r).map fun k => -(star (startPower inp g k) * rect (x r))).sum +
      ((onBus N.sourceBus r).map fun k => dot s (yRef s (N.y1 k) (N.y0 k)) (rect (x r))).sum) := by
    rw [← Finset.sum_ite_eq_of_mem (Finset.range N.T.nBus) r
      (fun _ => ((onBus N.loadBus r).map fun k => -(star (startPower inp g k) * rect (x r))).sum +
      ((onBus N.sourceBus r).map fun k => dot s (yRef s (N.y1 k) (N.y0 k)) (rect (x r))).sum) (Finset.mem_range.mpr hr), ← Finset.sum_add_distrib]
    refine Finset.sum_congr rfl fun c _ => ?_
    unfold startAct
    rw [rect_eq]
    congr 1
    by_cases hrc : r = c
    · subst hrc
      rw [if_pos rfl, if_pos rfl]
      congr 1
      congr 1
      apply List.map_congr_left
      intro k _
      have : ∀ p, Complex.I * star ((x r).cplx p) = rect (x r) p := fun p => congrFun (rect_eq (x r)) p
      funext p
      rw [this]
      simp
    · rw [if_neg hrc, if_neg hrc]
  rw [e1, atBus_eq, atBus_eq]
  have e2 : (onBus N.sourceBus r).map (physicalSource N inp (rect (x r))) = (onBus N.sourceBus r).map fun k =>
      dot s (yRef s (N.y1 k) (N.y0 k)) (spread s (inp.source k)) - dot s (yRef s (N.y1 k) (N.y0 k)) (rect (x r)) := by
    apply List.map_congr_left
    intro k _
    unfold physicalSource
    rw [map_sub]
  have hsub : ∀ (l : List Nat) (f g : Nat → CV s), (l.map fun k => f k - g k).sum = (l.map f).sum - (l.map g).sum := by
    intro l f g
    induction l with
    | nil => simp
    | cons a l ih => simp only [List.map_cons, List.sum_cons, ih]; abel
  have hneg : ∀ (l : List Nat) (f : Nat → CV s), (l.map fun k => -f k).sum = -(l.map f).sum := by
    intro l f
    induction l with
    | nil => simp
    | cons a l ih => simp only [List.map_cons, List.sum_cons, ih]; abel
  rw [e2, hsub, hneg]
  constructor
  · intro h
    rw [← h]
    abel
  · intro h
    rw [← h]
    abel

/-! ## An iteration -/

theorem rowEq_iff {N : PfNet s} (inp : PfInput s) (type : Nat → LoadType) (fixed : Nat → Option (RV s ℝ)) (pv : Nat → Prop) (x d : Nat → Polar s) :
    (∀ r, r < N.T.nBus → RowEq N inp type fixed x (fun c => phasor (x c)) (pv r) (fun c => (d c).cplx) r) ↔
      NewtonStep N inp type fixed pv x d := by
  have hre : ∀ b, b < N.T.nBus → ∀ p, HasDerivAt (fun t => (mismatch N inp type fixed (along x d t) b p).re)
      (-(∑ c ∈ Finset.range N.T.nBus, jacAct N inp type fixed x (fun c => phasor (x c)) b c (d c).cplx p).re) 0 := by
    intro b hb p
    have := Complex.reCLM.hasFDerivAt.comp_hasDerivAt (0 : ℝ) (jacobian_derivative N inp type fixed x d b hb p)
    refine HasDerivAt.congr_deriv this ?_
    simp
  have him : ∀ b, b < N.T.nBus → ∀ p, HasDerivAt (fun t => (mismatch N inp type fixed (along x d t) b p).im)
      (-(∑ c ∈ Finset.range N.T.nBus, jacAct N inp type fixed x (fun c => phasor (x c)) b c (d c).cplx p).im) 0 := by
    intro b hb p
    have := Complex.imCLM.hasFDerivAt.comp_hasDerivAt (0 : ℝ) (jacobian_derivative N inp type fixed x d b hb p)
    refine HasDerivAt.congr_deriv this ?_
    simp
  have hv : ∀ b p, ((d b).cplx p).re = (d b).v p := fun b p => by simp [Polar.cplx]
  constructor
  · intro h b hb p
    obtain ⟨h1, h2, h3⟩ := h b hb
    rw [rhsOf_eq] at h1 h2
    refine ⟨?_, fun hp => ?_, fun hp => ?_⟩
    · rw [← h1 p]
      exact hre b hb p
    · rw [← h2 hp p]
      exact him b hb p
    · have := h3 hp p
      rwa [hv] at this
  · intro h b hb
    unfold RowEq
    rw [rhsOf_eq]
    refine ⟨fun p => ?_, fun hp p => ?_, fun hp p => ?_⟩
    · exact neg_injective ((hre b hb p).unique (h b hb p).1)
    · exact neg_injective ((him b hb p).unique ((h b hb p).2.1 hp))
    · rw [hv]
      exact (h b hb p).2.2 hp

theorem iterateUnknown_keeps (errTol : Dbl ℝ) (cacheRun : Bool) (dev : Dbl ℝ) (st : Newton.State s ℝ) :
    (Newton.iterateUnknown errTol cacheRun dev st).1.ctl = st.ctl ∧ (Newton.iterateUnknown errTol cacheRun dev st).1.clamped = st.clamped ∧
      ((Newton.iterateUnknown errTol cacheRun dev st).2 = dev ∨ (Newton.iterateUnknown errTol cacheRun dev st).2 = .inf) := by
  unfold Newton.iterateUnknown
  have key : ∀ c : Bool, let r := (if c = true then ({ st with countdown := 0 }, Dbl.inf) else (st, dev) : Newton.State s ℝ × Dbl ℝ)
      r.1.ctl = st.ctl ∧ r.1.clamped = st.clamped ∧ (r.2 = dev ∨ r.2 = .inf) := by
    intro c
    cases c
    · exact ⟨rfl, rfl, Or.inl rfl⟩
    · exact ⟨rfl, rfl, Or.inr rfl⟩
  exact key _

/-- What is true of the members of the solver between iterations. -/
structure Inv (N : PfNet s) (st : Nr s) (u : Nat → CV s) : Prop where
  jac : st.sys.jac.length = N.S.colIndicesLu.length
  perms : st.perms.length = N.T.nBus
  volt : u = fun b => phasor (st.pol b)

/-- One iteration, from a state with `Inv`. -/
theorem nrStep_get (tol : ℝ) (errTol : Dbl ℝ) (cacheRun : Bool) {N : PfNet s} (hN : N.Valid) (hc : FillClosed N.T) (inp : PfInput s)
    {g : LoadInfo s} (hg : OneRegulator g) (st st' : Nr s) (u u' : Nat → CV s) (dev : Dbl ℝ) (hI : Inv N st u)
    (h : nrStep tol errTol cacheRun N inp g st u = .ok (st', u', dev)) :
    Inv N st' u' ∧ (dev = maxDev 0 ((List.range N.T.nBus).map fun b => voltageDev (u b) (u' b)) ∨ dev = .inf) ∧
    (∃ d : Nat → Polar s, (∀ b, st'.pol b = updatePolar (st.pol b) (d b)) ∧
      NewtonStep N inp g.type st'.lim.clamped (fun b => (st'.lim.ctl b).type = .pv) st.pol d ∧
      ∀ d', NewtonStep N inp g.type st'.lim.clamped (fun b => (st'.lim.ctl b).type = .pv) st.pol d' → ∀ b, b < N.T.nBus → d' b = d b) ∧
    ∃ it : Newton.Iter s ℝ, (∀ b, b < N.T.nBus → ∀ p, it.dq b p = (mismatch N inp g.type st.lim.clamped st.pol b p).im) ∧
      it.dev = maxDev 0 ((List.range N.T.nBus).map fun b => voltageDev (u b) (u' b)) ∧
      Newton.iterate tol errTol cacheRun (limitsInput N inp g) it st.lim = some (st'.lim, dev) := by
  unfold nrStep at h
  cases hp : prepare tol N inp g st u with
  | none => rw [hp] at h; simp at h
  | some st1 =>
    rw [hp] at h
    simp only at h
    obtain ⟨p1, p2, p3, dq, p4, p5⟩ := prepare_get tol hN inp hg st st1 u hI.jac hp
    cases hs : solve N st1.perms st1.sys with
    | error e => rw [hs] at h; simp [liftErr, bind, Except.bind] at h
    | ok d =>
      rw [hs] at h
      simp only [liftErr, bind, Except.bind] at h
      injection h with h
      obtain ⟨rfl, rfl, rfl⟩ := by simpa only [Prod.mk.injEq] using h
      obtain ⟨k1, k2, k3⟩ := iterateUnknown_keeps errTol cacheRun
        (maxDev 0 ((List.range N.T.nBus).map fun b => voltageDev (u b) (phasor (updatePolar (st1.pol b) (d b))))) st1.lim
      have hperm : st1.perms.length = N.T.nBus := by rw [p2]; exact hI.perms
      rw [hI.volt] at p3 p4
      refine ⟨⟨p3.1, hperm, rfl⟩, k3, ⟨d, fun b => by simp only [p1], ?_, fun d' hd' b hb => ?_⟩, ⟨dq, _⟩, fun b hb p => ?_, rfl, ?_⟩
      · simp only [k1, k2]
        rw [← rowEq_iff]
        intro r hr
        exact (p3.rows (fun c => (d c).cplx) r hr).mp (solve_sound hN hc p3.acts st1.perms hperm d hs r hr)
      · simp only [k1, k2] at hd'
        rw [← rowEq_iff] at hd'
        exact solve_unique hN hc p3.acts st1.perms hperm d hs d' (fun r hr => (p3.rows (fun c => (d' c).cplx) r hr).mpr (hd' r hr)) b hb
      · refine (p4 b hb p).trans ?_
        rw [rhsOf_eq]
      · unfold Newton.iterate
        rw [p5]
        rfl

theorem phasor_polar (u : CV s) : phasor ⟨fun p => (u p).arg, fun p => ‖u p‖⟩ = u := by
  funext p
  simp only [phasor]
  rw [mul_comm Complex.I]
  exact Complex.norm_mul_exp_arg_mul_I (u p)

/-- The state after the linear start. -/
theorem nrInit_get {N : PfNet s} (hN : N.Valid) (hc : FillClosed N.T) (inp : PfInput s) (g : LoadInfo s) (self st : Nr s) (u : Nat → CV s)
    (hp : self.perms.length = N.T.nBus) (h : nrInit N inp g self = .ok (st, u)) :
    Inv N st u ∧ st.lim = Newton.start (limitsInput N inp g) ∧ (∀ b p, (st.pol b).v p = ‖u b p‖) ∧
    ∃ x : Nat → Polar s, (∀ b, u b = referenceVoltage ((Newton.start (limitsInput N inp g)).ctl b) (rect (x b))) ∧
      ∀ r, r < N.T.nBus → atBus N.sourceBus (physicalSource N inp (rect (x r))) r +
        atBus N.loadBus (fun k => star (startPower inp g k) * rect (x r)) r =
          ∑ c ∈ Finset.range N.T.nBus, dot s (nodal N.T N.y.param r c) (rect (x c)) := by
  unfold nrInit at h
  cases hs : solve N self.perms (startSys N inp g) with
  | error e => rw [hs] at h; simp [liftErr, bind, Except.bind] at h
  | ok x =>
    rw [hs] at h
    simp only [liftErr, bind, Except.bind] at h
    injection h with h
    obtain ⟨rfl, rfl⟩ := by simpa only [Prod.mk.injEq] using h
    obtain ⟨a1, a2⟩ := start_get hN inp g
    refine ⟨⟨a1.1, hp, ?_⟩, rfl, fun _ _ => rfl, x, fun _ => rfl, fun r hr => ?_⟩
    · funext b
      exact (phasor_polar _).symm
    · rw [← start_rows N inp g x r hr, ← a2 r hr]
      exact solve_sound hN hc a1 self.perms hp x hs r hr

end PGM.NewtonPf
