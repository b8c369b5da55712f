import Verif.Newton.Build

/-!
# The equations of an iteration

Lemmas for C54: rebuilding after a switch at a limit, voltage-controlled buses, and the solutions of the sparse solver.
-/

namespace PGM.NewtonPf

open PGM.YBus PGM.Lu PGM.PowerFlow PGM.Component

variable {s : Symm}

/-! ## Rebuilding after a switch -/

theorem RowIs.same {N : PfNet s} {inp : PfInput s} {type : Nat → LoadType} {fixed : Nat → Option (RV s ℝ)} {pol : Nat → Polar s}
    {u : Nat → CV s} {x y : Sys s} {r : Nat} (h : RowIs N inp type fixed pol u x r) (hs : SameRow N r x y) : RowIs N inp type fixed pol u y r := by
  refine ⟨by rw [hs.1]; exact h.1, fun c k hk => ?_⟩
  rw [hs.2 c k hk]
  exact h.2 c k hk

theorem RowIs.congr {N : PfNet s} {inp : PfInput s} {type : Nat → LoadType} {fixed fixed' : Nat → Option (RV s ℝ)} {pol : Nat → Polar s}
    {u : Nat → CV s} {x : Sys s} {r : Nat} (h : RowIs N inp type fixed pol u x r) (hf : ∀ k ∈ onBus N.loadBus r, fixed' k = fixed k) :
    RowIs N inp type fixed' pol u x r := by
  have h1 : ((onBus N.loadBus r).map (given inp type fixed' (pol r).v)) = (onBus N.loadBus r).map (given inp type fixed (pol r).v) := by
    apply List.map_congr_left
    intro k hk
    unfold given
    rw [hf k hk]
  have h2 : ∀ η : CV s, ((onBus N.loadBus r).map fun k p => (loadSlope inp (type k) (fixed' k) k (pol r).v).cplx p * ((η p).re : ℂ)) =
      (onBus N.loadBus r).map fun k p => (loadSlope inp (type k) (fixed k) k (pol r).v).cplx p * ((η p).re : ℂ) := by
    intro η
    apply List.map_congr_left
    intro k hk
    rw [hf k hk]
  refine ⟨?_, fun c k hk => ?_⟩
  · rw [h.1]
    unfold rhsOf
    rw [h1]
  · obtain ⟨b, e1, e2⟩ := h.2 c k hk
    refine ⟨b, e1, fun η => ?_⟩
    rw [e2]
    unfold jacAct
    rw [h2]

theorem limits_buses (N : PfNet s) (inp : PfInput s) (g : LoadInfo s) : (limitsInput N inp g).buses.length = N.T.nBus := by
  simp [limitsInput]

theorem limits_bus (N : PfNet s) (inp : PfInput s) (g : LoadInfo s) {b : Nat} (hb : b < N.T.nBus) :
    (limitsInput N inp g).buses[b]? = some ⟨!(onBus N.sourceBus b).isEmpty, onBus N.loadBus b⟩ := by
  simp [limitsInput, hb]

theorem onBus_nodup (l : List Nat) (b : Nat) : (onBus l b).Nodup := List.Nodup.filter _ List.nodup_range

/-- Every load or generator has at most one active regulator, as the validation of the model guarantees (C41). -/
def OneRegulator (g : LoadInfo s) : Prop := ∀ k, ((g.regs k).filter (·.on)).length ≤ 1

theorem limits_valid (N : PfNet s) (inp : PfInput s) (g : LoadInfo s) (hg : OneRegulator g) : Newton.Valid (limitsInput N inp g) where
  oneRegulator := hg
  nodup b hb := by
    unfold limitsInput at hb
    rw [List.mem_map] at hb
    obtain ⟨i, _, rfl⟩ := hb
    exact onBus_nodup _ _
  disjoint i j hi hj hij k hk hk' := by
    simp only [limitsInput, List.getElem_map, List.getElem_range] at hk hk'
    have h1 := mem_onBus.mp hk
    have h2 := mem_onBus.mp hk'
    rw [h1] at h2
    exact hij (Option.some.inj h2)

/-- A bus that is not switched keeps what its loads and generators were fixed at. -/
theorem unswitched_fixed (tol : ℝ) {N : PfNet s} (inp : PfInput s) {g : LoadInfo s} (hg : OneRegulator g) (dq : Nat → RV s ℝ)
    (lim lim' : Newton.State s ℝ) (h : Newton.prepare tol (limitsInput N inp g) dq lim = some lim') (r : Nat) (hr : r < N.T.nBus)
    (hs : unswitched lim lim' r = true) : ∀ k ∈ onBus N.loadBus r, lim'.clamped k = lim.clamped k := by
  intro k hk
  unfold Newton.prepare at h
  simp only at h
  set lim1 := if 0 < lim.countdown then { lim with countdown := lim.countdown - 1 } else lim with hlim1
  have hc1 : lim1.clamped = lim.clamped ∧ lim1.ctl = lim.ctl := by
    rw [hlim1]
    split_ifs <;> exact ⟨rfl, rfl⟩
  by_cases h0 : lim1.countdown = 0
  · rw [if_pos h0] at h
    unfold Newton.enforce at h
    have hi : r < (limitsInput N inp g).buses.length := by rw [limits_buses]; exact hr
    obtain ⟨_, e2, e3⟩ := Newton.enforce_list tol (limitsInput N inp g) (limits_valid N inp g hg) dq r hi _
      (fun b hb => List.mem_range.mp hb) List.nodup_range lim1 lim' h
    have hm : k ∈ ((limitsInput N inp g).buses[r]).loadGens := by
      have := limits_bus N inp g hr
      rw [List.getElem?_eq_getElem hi] at this
      rw [Option.some.inj this]
      exact hk
    rw [← hc1.1]
    by_cases hpv : (lim1.ctl r).type = .pv
    · obtain ⟨a, a', f1, f2, f3, f4⟩ := e3 (List.mem_range.mpr hi)
      have hnot : (lim'.ctl r).type = .pv := by
        unfold unswitched at hs
        rw [hc1.2] at hpv
        simpa [hpv] using hs
      obtain ⟨_, f5⟩ := Newton.enforceBus_spec tol _ dq a a' r f1
      rcases f5 with ⟨rfl, _⟩ | ⟨_, _, spec, limit, _, _, _, _, f6⟩
      · rw [← (f4 k hm).1, (f4 k hm).2]
      · rw [← f3, f6] at hnot
        simp at hnot
    · exact (e2 (Or.inr hpv)).2 k hm
  · rw [if_neg h0] at h
    injection h with h
    rw [← h, hc1.1]

/-! ## Voltage-controlled buses -/

theorem act_pv (b : Jac s) (v : RV s ℝ) (d : Bool) (η : CV s) :
    act { b with m := 0, l := if d then Matrix.diagonal v else 0 } η =
      fun p => ((act b η p).re : ℂ) + ((if d then v p * (η p).re else 0 : ℝ) : ℂ) * Complex.I := by
  funext p
  have hre : (act b η p).re = ∑ q, (b.h p q * (η q).im + b.n p q * (η q).re) := by
    unfold act
    rw [Complex.re_sum]
    refine Finset.sum_congr rfl fun q _ => ?_
    simp
  rw [hre]
  unfold act
  simp only [Matrix.zero_apply, zero_mul, zero_add]
  rw [Finset.sum_add_distrib]
  push_cast
  congr 1
  rw [← Finset.sum_mul]
  congr 1
  cases d
  · simp
  · simp only [if_true]
    rw [Finset.sum_eq_single p]
    · rw [Matrix.diagonal_apply_eq]
      push_cast
      ring
    · intro q _ hq
      rw [Matrix.diagonal_apply_ne _ (Ne.symm hq)]
      simp
    · simp

theorem pv_fold (N : PfNet s) (v : RV s ℝ) (row : Nat) (l : List Nat) (hn : l.Nodup) (jac : List (Jac s)) :
    (l.foldl (pvEntry N v row) jac).length = jac.length ∧
    ∀ k, (l.foldl (pvEntry N v row) jac)[k]? = if k ∈ l then
      jac[k]?.map fun b => { b with m := 0, l := if (decide (row = N.S.colIndicesLu[k]?.getD 0)) = true then Matrix.diagonal v else 0 }
      else jac[k]? := by
  induction l generalizing jac with
  | nil => simp
  | cons a l ih =>
    rw [List.nodup_cons] at hn
    rw [List.foldl_cons]
    obtain ⟨h1, h2⟩ := ih hn.2 (pvEntry N v row jac a)
    refine ⟨by rw [h1]; unfold pvEntry; rw [List.length_modify], fun k => ?_⟩
    rw [h2 k]
    unfold pvEntry
    by_cases ha : a = k
    · subst ha
      rw [if_neg hn.1, if_pos (show a ∈ a :: l from List.mem_cons_self ..), modify_self rfl]
      simp only [decide_eq_true_eq]
    · rw [modify_ne ha]
      have : (k ∈ a :: l) = (k ∈ l) := by
        rw [List.mem_cons, eq_iff_iff]
        exact ⟨fun h => h.resolve_left fun e => ha e.symm, Or.inr⟩
      simp only [this]

theorem pvRow_spec {N : PfNet s} (hN : N.Valid) (pol : Nat → Polar s) (x : Sys s) (r : Nat) (hr : r < N.T.nBus) :
    ((pvRow N pol x r).pq r).cplx = (fun p => (((x.pq r).p p : ℝ) : ℂ)) ∧
    ∀ c k, EntryAt N.S.rowIndptrLu N.S.colIndicesLu r c k → ∀ b, x.jac[k]? = some b → ∃ b', (pvRow N pol x r).jac[k]? = some b' ∧
      ∀ η, act b' η = fun p => ((act b η p).re : ℂ) + ((if r = c then (pol r).v p * (η p).re else 0 : ℝ) : ℂ) * Complex.I := by
  obtain ⟨I, D, E⟩ := correct_structure hN
  unfold pvRow
  refine ⟨by funext p; simp [Power.cplx], fun c k hk b hb => ?_⟩
  simp only
  rw [(pv_fold N (pol r).v r _ List.nodup_range' x.jac).2 k, if_pos ((StateEst.mem_row I hr).mpr ⟨(E r c k hk).2.2, c, hk⟩), hb]
  refine ⟨_, rfl, fun η => ?_⟩
  rw [act_pv, (E r c k hk).2.1]
  simp only [decide_eq_true_eq]

theorem pvRow_local {N : PfNet s} (hN : N.Valid) (pol : Nat → Polar s) : RowStep N (pvRow N pol) := by
  intro x r hr
  obtain ⟨I, D, E⟩ := correct_structure hN
  unfold pvRow
  simp only
  have hf := pv_fold N (pol r).v r (List.range' (N.S.rowIndptrLu[r]?.getD 0) (N.S.rowIndptrLu[r + 1]?.getD 0 - N.S.rowIndptrLu[r]?.getD 0))
    List.nodup_range' x.jac
  refine ⟨hf.1, fun r' hr' hne => ⟨by simp [hne], fun c k hk => ?_⟩⟩
  simp only
  rw [hf.2 k, if_neg]
  intro hm
  obtain ⟨_, c', hc'⟩ := (StateEst.mem_row I hr).mp hm
  exact hne (csr_row_unique I hr' hr hk hc').1

/-- The equation of a row for a step: the one of a bus with given powers, or the one of a voltage-controlled bus. -/
def RowEq (N : PfNet s) (inp : PfInput s) (type : Nat → LoadType) (fixed : Nat → Option (RV s ℝ)) (pol : Nat → Polar s) (u : Nat → CV s)
    (pv : Prop) (η : Nat → CV s) (r : Nat) : Prop :=
  (∀ p, (∑ c ∈ Finset.range N.T.nBus, jacAct N inp type fixed pol u r c (η c) p).re = (rhsOf N inp type fixed pol u r p).re) ∧
  (¬ pv → ∀ p, (∑ c ∈ Finset.range N.T.nBus, jacAct N inp type fixed pol u r c (η c) p).im = (rhsOf N inp type fixed pol u r p).im) ∧
  (pv → ∀ p, (pol r).v p * (η r p).re = 0)

/-- A system whose rows hold the equations of an iteration. -/
def SysIs (N : PfNet s) (inp : PfInput s) (type : Nat → LoadType) (fixed : Nat → Option (RV s ℝ)) (pol : Nat → Polar s) (u : Nat → CV s)
    (pv : Nat → Prop) (x : Sys s) : Prop :=
  x.jac.length = N.S.colIndicesLu.length ∧ ∀ r, r < N.T.nBus →
    (¬ pv r → RowIs N inp type fixed pol u x r) ∧
    (pv r → (x.pq r).cplx = (fun p => ((rhsOf N inp type fixed pol u r p).re : ℂ)) ∧
      ∀ c k, EntryAt N.S.rowIndptrLu N.S.colIndicesLu r c k → ∃ b, x.jac[k]? = some b ∧ ∀ η, act b η =
        fun p => ((jacAct N inp type fixed pol u r c η p).re : ℂ) + ((if r = c then (pol r).v p * (η p).re else 0 : ℝ) : ℂ) * Complex.I)

theorem applyPv_get {N : PfNet s} (hN : N.Valid) (inp : PfInput s) (type : Nat → LoadType) (fixed : Nat → Option (RV s ℝ))
    (pol : Nat → Polar s) (u : Nat → CV s) (ctl : Nat → Newton.Control ℝ) (x : Sys s) (hx : x.jac.length = N.S.colIndicesLu.length)
    (h : ∀ r, r < N.T.nBus → RowIs N inp type fixed pol u x r) :
    SysIs N inp type fixed pol u (fun b => (ctl b).type = .pv) (applyPv N ctl pol x) := by
  have heq : applyPv N ctl pol x =
      (List.range N.T.nBus).foldl (fun x r => if (!decide ((ctl r).type = .pv)) = true then x else pvRow N pol x r) x := by
    unfold applyPv
    congr 1
    funext x r
    by_cases hp : (ctl r).type = .pv <;> simp [hp]
  rw [heq]
  obtain ⟨l1, l2⟩ := rows_loop (pvRow_local hN pol) (fun r => !decide ((ctl r).type = .pv)) (List.range N.T.nBus) List.nodup_range
    (fun r hr => List.mem_range.mp hr) x
  refine ⟨l1.trans hx, fun r hr => ⟨fun hp => ?_, fun hp => ?_⟩⟩
  · exact (h r hr).same ((l2 r hr).2 (Or.inr (by simp [hp])))
  · obtain ⟨x', _, s1, s2⟩ := (l2 r hr).1 (List.mem_range.mpr hr) (by simp [hp])
    have hx' := (h r hr).same s1
    obtain ⟨p1, p2⟩ := pvRow_spec hN pol x' r hr
    refine ⟨?_, fun c k hk => ?_⟩
    · rw [s2.1, p1, ← hx'.1]
      funext p
      rw [Power.cplx_re]
    · obtain ⟨b, e1, e2⟩ := hx'.2 c k hk
      obtain ⟨b', e3, e4⟩ := p2 c k hk b e1
      refine ⟨b', (s2.2 c k hk).trans e3, fun η => ?_⟩
      rw [e4, e2]

/-- **The equations that an iteration solves are those of the state after the check of the limits.** -/
theorem prepare_get (tol : ℝ) {N : PfNet s} (hN : N.Valid) (inp : PfInput s) {g : LoadInfo s} (hg : OneRegulator g) (st st' : Nr s)
    (u : Nat → CV s) (hst : st.sys.jac.length = N.S.colIndicesLu.length) (h : prepare tol N inp g st u = some st') :
    st'.pol = st.pol ∧ st'.perms = st.perms ∧
    SysIs N inp g.type st'.lim.clamped st.pol u (fun b => (st'.lim.ctl b).type = .pv) st'.sys ∧
    ∃ dq : Nat → RV s ℝ, (∀ b, b < N.T.nBus → ∀ p, dq b p = (rhsOf N inp g.type st.lim.clamped st.pol u b p).im) ∧
      Newton.prepare tol (limitsInput N inp g) dq st.lim = some st'.lim := by
  unfold prepare at h
  simp only [bind, Option.bind_eq_some_iff] at h
  obtain ⟨lim, h1, h2⟩ := h
  injection h2 with h2
  subst h2
  obtain ⟨b1, b2⟩ := build_get hN inp g.type st.lim.clamped st.pol u (fun _ => false) st.sys hst
  set x := build N inp g.type st.lim.clamped st.pol u (fun _ => false) st.sys
  obtain ⟨c1, c2⟩ := build_get hN inp g.type lim.clamped st.pol u (unswitched st.lim lim) x b1
  refine ⟨rfl, rfl, ?_, fun b => (x.pq b).q, fun b hb p => ?_, h1⟩
  · refine applyPv_get hN inp g.type lim.clamped st.pol u lim.ctl _ c1 fun r hr => ?_
    cases hs : unswitched st.lim lim r with
    | false => exact (c2 r hr).1 hs
    | true => exact (((b2 r hr).1 rfl).same ((c2 r hr).2 hs)).congr (unswitched_fixed tol inp hg _ st.lim lim h1 r hr hs)
  · rw [← ((b2 b hb).1 rfl).1, Power.cplx_im]

end PGM.NewtonPf
