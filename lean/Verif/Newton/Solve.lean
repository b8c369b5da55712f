import Verif.Newton.Prepare

/-!
# What the sparse solver returns for the real block equations

Lemmas for C54.
-/

namespace PGM.NewtonPf

open PGM.YBus PGM.Lu PGM.PowerFlow PGM.Component

variable {s : Symm}

theorem toBlk_mulVec (b : Jac s) (x : Fin (s.phases + s.phases) → ℝ) :
    b.toBlk.mulVec x = join (b.h.mulVec (upper x) + b.n.mulVec (lower x)) (b.m.mulVec (upper x) + b.l.mulVec (lower x)) := by
  unfold Jac.toBlk
  rw [Matrix.submatrix_mulVec_equiv]
  have : (x ∘ finSumFinEquiv.symm.symm) = Sum.elim (upper x) (lower x) := by
    funext i
    cases i <;> rfl
  rw [this, Matrix.fromBlocks_mulVec]
  rfl

theorem upper_join {n : Nat} (a b : Fin n → ℝ) : upper (join a b) = a := by
  funext p; simp only [upper, join, Equiv.symm_apply_apply, Sum.elim_inl]

theorem lower_join {n : Nat} (a b : Fin n → ℝ) : lower (join a b) = b := by
  funext p; simp only [lower, join, Equiv.symm_apply_apply, Sum.elim_inr]

theorem upper_sum {n : Nat} (l : Finset Nat) (f : Nat → Fin (n + n) → ℝ) : upper (∑ c ∈ l, f c) = ∑ c ∈ l, upper (f c) := by
  funext p; simp only [upper, Finset.sum_apply]

theorem lower_sum {n : Nat} (l : Finset Nat) (f : Nat → Fin (n + n) → ℝ) : lower (∑ c ∈ l, f c) = ∑ c ∈ l, lower (f c) := by
  funext p; simp only [lower, Finset.sum_apply]

theorem join_parts {n : Nat} (x : Fin (n + n) → ℝ) : join (upper x) (lower x) = x := by
  funext i
  unfold join upper lower
  cases h : finSumFinEquiv.symm i with
  | inl p => rw [Sum.elim_inl, ← h, Equiv.apply_symm_apply]
  | inr p => rw [Sum.elim_inr, ← h, Equiv.apply_symm_apply]

theorem parts_eq {n : Nat} {x y : Fin (n + n) → ℝ} : x = y ↔ upper x = upper y ∧ lower x = lower y :=
  ⟨fun h => by rw [h]; exact ⟨rfl, rfl⟩, fun h => by rw [← join_parts x, ← join_parts y, h.1, h.2]⟩

theorem toBlk_act (b : Jac s) (d : Polar s) (p : Fin s.phases) :
    upper (b.toBlk.mulVec (join d.theta d.v)) p = (act b d.cplx p).re ∧ lower (b.toBlk.mulVec (join d.theta d.v)) p = (act b d.cplx p).im := by
  rw [toBlk_mulVec, upper_join, lower_join, upper_join, lower_join]
  unfold act
  rw [Complex.re_sum, Complex.im_sum]
  have him : ∀ q, (d.cplx q).im = d.theta q := fun q => by simp [Polar.cplx]
  have hre : ∀ q, (d.cplx q).re = d.v q := fun q => by simp [Polar.cplx]
  constructor
  · rw [Pi.add_apply]
    unfold Matrix.mulVec dotProduct
    rw [← Finset.sum_add_distrib]
    refine Finset.sum_congr rfl fun q _ => ?_
    rw [him, hre]
    simp
  · rw [Pi.add_apply]
    unfold Matrix.mulVec dotProduct
    rw [← Finset.sum_add_distrib]
    refine Finset.sum_congr rfl fun q _ => ?_
    rw [him, hre]
    simp

/-- A system whose blocks do `W`. -/
def Acts (N : PfNet s) (x : Sys s) (W : Nat → Nat → CV s → CV s) : Prop :=
  x.jac.length = N.S.colIndicesLu.length ∧
  (∀ r, r < N.T.nBus → ∀ c k, EntryAt N.S.rowIndptrLu N.S.colIndicesLu r c k → ∃ b, x.jac[k]? = some b ∧ ∀ η, act b η = W r c η) ∧
  ∀ r c, ¬ InLu N.T r c → ∀ η, W r c η = 0

theorem acts_matrix {N : PfNet s} (hN : N.Valid) {x : Sys s} {W : Nat → Nat → CV s → CV s} (h : Acts N x W) {r c : Nat} (hr : r < N.T.nBus)
    (d : Polar s) (p : Fin s.phases) :
    upper ((matrixOf (luPattern N.S) (x.jac.map Jac.toBlk) r c).mulVec (join d.theta d.v)) p = (W r c d.cplx p).re ∧
    lower ((matrixOf (luPattern N.S) (x.jac.map Jac.toBlk) r c).mulVec (join d.theta d.v)) p = (W r c d.cplx p).im := by
  obtain ⟨I, _, _⟩ := correct_structure hN
  unfold matrixOf
  by_cases hex : ∃ i, EntryAt (luPattern N.S).rowIndptr (luPattern N.S).colIndices r c i
  · rw [dif_pos hex]
    obtain ⟨b, e1, e2⟩ := h.2.1 r hr c _ hex.choose_spec
    rw [List.getElem?_map, e1, ← e2]
    exact toBlk_act b d p
  · rw [dif_neg hex, h.2.2 r c (fun hl => hex ((I.pattern r hr c).mpr hl))]
    simp [upper, lower]

theorem acts_holds {N : PfNet s} (hN : N.Valid) (hc : FillClosed N.T) {x : Sys s} (hx : x.jac.length = N.S.colIndicesLu.length) :
    Holds (luPattern N.S) N.T.nBus (InLu N.T) (x.jac.map Jac.toBlk) (matrixOf (luPattern N.S) (x.jac.map Jac.toBlk)) :=
  matrixOf_holds (structure_valid hN.topo hc hN.structure_) _ (by rw [List.length_map, hx]; rfl)

/-- The right-hand side given to the sparse solver. -/
def rhsList (N : PfNet s) (x : Sys s) : List (Fin (s.phases + s.phases) → ℝ) := (List.range N.T.nBus).map fun b => join (x.pq b).p (x.pq b).q

theorem system_iff {N : PfNet s} (hN : N.Valid) {x : Sys s} {W : Nat → Nat → CV s → CV s} (h : Acts N x W)
    (y : List (Fin (s.phases + s.phases) → ℝ)) :
    SolvesSystem N.T.nBus (matrixOf (luPattern N.S) (x.jac.map Jac.toBlk)) y (rhsList N x) ↔
      y.length = N.T.nBus ∧ ∀ r, r < N.T.nBus →
        ∑ c ∈ Finset.range N.T.nBus, W r c (Polar.cplx ⟨upper (y[c]?.getD 0), lower (y[c]?.getD 0)⟩) = (x.pq r).cplx := by
  have hrow : ∀ r, r < N.T.nBus → ((∀ t, product N.T.nBus (matrixOf (luPattern N.S) (x.jac.map Jac.toBlk)) y r t = at' (rhsList N x) r t) ↔
      ∑ c ∈ Finset.range N.T.nBus, W r c (Polar.cplx ⟨upper (y[c]?.getD 0), lower (y[c]?.getD 0)⟩) = (x.pq r).cplx) := by
    intro r hr
    have h1 : (∀ t, product N.T.nBus (matrixOf (luPattern N.S) (x.jac.map Jac.toBlk)) y r t = at' (rhsList N x) r t) ↔
        ∑ c ∈ Finset.range N.T.nBus, (matrixOf (luPattern N.S) (x.jac.map Jac.toBlk) r c).mulVec (y[c]?.getD 0) = join (x.pq r).p (x.pq r).q := by
      rw [funext_iff]
      refine forall_congr' fun t => ?_
      have e1 : at' (rhsList N x) r t = join (x.pq r).p (x.pq r).q t := by
        unfold at' rhsList
        rw [List.getElem?_map, List.getElem?_range hr]
        rfl
      rw [e1, Finset.sum_apply]
      rfl
    rw [h1, parts_eq, upper_sum, lower_sum, upper_join, lower_join]
    have hu : ∀ c p, upper ((matrixOf (luPattern N.S) (x.jac.map Jac.toBlk) r c).mulVec (y[c]?.getD 0)) p =
        (W r c (Polar.cplx ⟨upper (y[c]?.getD 0), lower (y[c]?.getD 0)⟩) p).re := by
      intro c p
      have := (acts_matrix hN h (c := c) hr ⟨upper (y[c]?.getD 0), lower (y[c]?.getD 0)⟩ p).1
      simp only [join_parts] at this
      exact this
    have hl : ∀ c p, lower ((matrixOf (luPattern N.S) (x.jac.map Jac.toBlk) r c).mulVec (y[c]?.getD 0)) p =
        (W r c (Polar.cplx ⟨upper (y[c]?.getD 0), lower (y[c]?.getD 0)⟩) p).im := by
      intro c p
      have := (acts_matrix hN h (c := c) hr ⟨upper (y[c]?.getD 0), lower (y[c]?.getD 0)⟩ p).2
      simp only [join_parts] at this
      exact this
    rw [funext_iff, funext_iff, funext_iff, ← forall_and]
    refine forall_congr' fun p => ?_
    rw [Finset.sum_apply, Finset.sum_apply, Finset.sum_apply, Complex.ext_iff, Complex.re_sum, Complex.im_sum, Power.cplx_re, Power.cplx_im]
    simp only [hu, hl]
  unfold SolvesSystem
  constructor
  · rintro ⟨h1, h2⟩
    exact ⟨h1, fun r hr => (hrow r hr).mp (h2 r hr)⟩
  · rintro ⟨h1, h2⟩
    exact ⟨h1, fun r hr => (hrow r hr).mpr (h2 r hr)⟩

theorem solve_eq (N : PfNet s) (perms : List (BlockPerm (s.phases + s.phases))) (x : Sys s) (d : Nat → Polar s) (h : solve N perms x = .ok d) :
    ∃ y, factorizeAndSolve (luPattern N.S) false (x.jac.map Jac.toBlk) perms (rhsList N x) = .ok y ∧
      d = fun b => ⟨upper (y[b]?.getD 0), lower (y[b]?.getD 0)⟩ := by
  unfold solve at h
  change (do
    let r ← factorizeAndSolve (luPattern N.S) false (x.jac.map Jac.toBlk) perms (rhsList N x)
    Except.ok fun b => (⟨upper (r[b]?.getD 0), lower (r[b]?.getD 0)⟩ : Polar s)) = .ok d at h
  cases hf : factorizeAndSolve (luPattern N.S) false (x.jac.map Jac.toBlk) perms (rhsList N x) with
  | error e => rw [hf] at h; simp [bind, Except.bind] at h
  | ok y =>
    rw [hf] at h
    simp only [bind, Except.bind] at h
    exact ⟨y, rfl, (Except.ok.inj h).symm⟩

theorem rhsList_length (N : PfNet s) (x : Sys s) : (rhsList N x).length = N.T.nBus := by simp [rhsList]

/-- A solution that the sparse solver returns satisfies the equations. -/
theorem solve_sound {N : PfNet s} (hN : N.Valid) (hc : FillClosed N.T) {x : Sys s} {W : Nat → Nat → CV s → CV s} (h : Acts N x W)
    (perms : List (BlockPerm (s.phases + s.phases))) (hp : perms.length = N.T.nBus) (d : Nat → Polar s) (hd : solve N perms x = .ok d) (r : Nat)
    (hr : r < N.T.nBus) : ∑ c ∈ Finset.range N.T.nBus, W r c (d c).cplx = (x.pq r).cplx := by
  obtain ⟨y, h1, rfl⟩ := solve_eq N perms x d hd
  have := factorizeAndSolve_exact (structure_valid hN.topo hc hN.structure_) _ _ perms (acts_holds hN hc h.1) hp _ y (rhsList_length N x) h1
  exact ((system_iff hN h y).mp this).2 r hr

/-- And no other does. -/
theorem solve_unique {N : PfNet s} (hN : N.Valid) (hc : FillClosed N.T) {x : Sys s} {W : Nat → Nat → CV s → CV s} (h : Acts N x W)
    (perms : List (BlockPerm (s.phases + s.phases))) (hp : perms.length = N.T.nBus) (d : Nat → Polar s) (hd : solve N perms x = .ok d)
    (d' : Nat → Polar s) (h' : ∀ r, r < N.T.nBus → ∑ c ∈ Finset.range N.T.nBus, W r c (d' c).cplx = (x.pq r).cplx) (b : Nat) (hb : b < N.T.nBus) :
    d' b = d b := by
  obtain ⟨y, h1, rfl⟩ := solve_eq N perms x d hd
  have hv := structure_valid hN.topo hc hN.structure_
  have s1 := factorizeAndSolve_exact hv _ _ perms (acts_holds hN hc h.1) hp _ y (rhsList_length N x) h1
  have hget : ∀ c, c < N.T.nBus → ((List.range N.T.nBus).map fun b => join (d' b).theta (d' b).v)[c]?.getD 0 = join (d' c).theta (d' c).v := by
    intro c hc
    rw [List.getElem?_map, List.getElem?_range hc]
    rfl
  have s2 : SolvesSystem N.T.nBus (matrixOf (luPattern N.S) (x.jac.map Jac.toBlk)) ((List.range N.T.nBus).map fun b => join (d' b).theta (d' b).v)
      (rhsList N x) := by
    rw [system_iff hN h]
    refine ⟨by simp, fun r hr => ?_⟩
    rw [← h' r hr]
    refine Finset.sum_congr rfl fun c hc => ?_
    rw [hget c (Finset.mem_range.mp hc), upper_join, lower_join]
  have hu : ∀ y z, SolvesSystem N.T.nBus (matrixOf (luPattern N.S) (x.jac.map Jac.toBlk)) y (rhsList N x) →
      SolvesSystem N.T.nBus (matrixOf (luPattern N.S) (x.jac.map Jac.toBlk)) z (rhsList N x) → y = z := by
    cases hf : prefactorize (luPattern N.S) false (x.jac.map Jac.toBlk) perms with
    | error e =>
      unfold factorizeAndSolve at h1
      rw [hf] at h1
      simp [bind, Except.bind] at h1
    | ok f => exact (solve_exact hv _ _ perms (acts_holds hN hc h.1) hp f hf _ _ (rhsList_length N x) (rhsList_length N x)).2.2
  rw [← hu _ _ s2 s1]
  simp only [hget b hb, upper_join, lower_join]

/-- The sparse solver never runs out of range: it returns a solution or reports a singular matrix. -/
theorem solve_total' {N : PfNet s} (hN : N.Valid) (hc : FillClosed N.T) {x : Sys s} (hx : x.jac.length = N.S.colIndicesLu.length)
    (perms : List (BlockPerm (s.phases + s.phases))) (hp : perms.length = N.T.nBus) :
    solve N perms x = .error .singular ∨ ∃ d, solve N perms x = .ok d := by
  rcases solve_total (structure_valid hN.topo hc hN.structure_) false _ _ perms (acts_holds hN hc hx) hp _ (rhsList_length N x) with h | ⟨y, h, _⟩
  · left
    unfold solve
    unfold rhsList at h
    rw [h]
    rfl
  · right
    unfold solve
    unfold rhsList at h
    rw [h]
    exact ⟨_, rfl⟩

/-! ## The equations of an iteration -/

theorem jacAct_zero {N : PfNet s} (inp : PfInput s) (type : Nat → LoadType) (fixed : Nat → Option (RV s ℝ)) (pol : Nat → Polar s)
    (u : Nat → CV s) {r c : Nat} (h : ¬ InLu N.T r c) (η : CV s) : jacAct N inp type fixed pol u r c η = 0 := by
  have hne : r ≠ c := fun e => h (Or.inl (Or.inl e))
  unfold jacAct
  rw [nodal_zero _ (fun h' => h (Or.inl h')), if_neg hne, add_zero]
  funext p
  simp [powerFlow]

open Classical in
/-- What the blocks of an iteration do. -/
noncomputable def stepAct (N : PfNet s) (inp : PfInput s) (type : Nat → LoadType) (fixed : Nat → Option (RV s ℝ)) (pol : Nat → Polar s)
    (u : Nat → CV s) (pv : Nat → Prop) (r c : Nat) (η : CV s) : CV s :=
  if pv r then fun p => ((jacAct N inp type fixed pol u r c η p).re : ℂ) + ((if r = c then (pol r).v p * (η p).re else 0 : ℝ) : ℂ) * Complex.I
  else jacAct N inp type fixed pol u r c η

theorem SysIs.acts {N : PfNet s} {inp : PfInput s} {type : Nat → LoadType} {fixed : Nat → Option (RV s ℝ)} {pol : Nat → Polar s}
    {u : Nat → CV s} {pv : Nat → Prop} {x : Sys s} (h : SysIs N inp type fixed pol u pv x) :
    Acts N x (stepAct N inp type fixed pol u pv) := by
  refine ⟨h.1, fun r hr c k hk => ?_, fun r c hl η => ?_⟩
  · by_cases hp : pv r
    · obtain ⟨b, e1, e2⟩ := ((h.2 r hr).2 hp).2 c k hk
      exact ⟨b, e1, fun η => by rw [e2]; unfold stepAct; rw [if_pos hp]⟩
    · obtain ⟨b, e1, e2⟩ := ((h.2 r hr).1 hp).2 c k hk
      exact ⟨b, e1, fun η => by rw [e2]; unfold stepAct; rw [if_neg hp]⟩
  · have hne : r ≠ c := fun e => hl (Or.inl (Or.inl e))
    unfold stepAct
    split_ifs
    · funext p
      simp [jacAct_zero inp type fixed pol u hl]
    · exact jacAct_zero inp type fixed pol u hl η

/-- The rows of the system are the equations of the buses. -/
theorem SysIs.rows {N : PfNet s} {inp : PfInput s} {type : Nat → LoadType} {fixed : Nat → Option (RV s ℝ)} {pol : Nat → Polar s}
    {u : Nat → CV s} {pv : Nat → Prop} {x : Sys s} (h : SysIs N inp type fixed pol u pv x) (η : Nat → CV s) (r : Nat) (hr : r < N.T.nBus) :
    ∑ c ∈ Finset.range N.T.nBus, stepAct N inp type fixed pol u pv r c (η c) = (x.pq r).cplx ↔ RowEq N inp type fixed pol u (pv r) η r := by
  unfold RowEq stepAct
  by_cases hp : pv r
  · simp only [if_pos hp]
    rw [((h.2 r hr).2 hp).1, funext_iff]
    have e : ∀ p, (∑ c ∈ Finset.range N.T.nBus, fun p : Fin s.phases => ((jacAct N inp type fixed pol u r c (η c) p).re : ℂ) +
        ((if r = c then (pol r).v p * (η c p).re else 0 : ℝ) : ℂ) * Complex.I) p =
        (((∑ c ∈ Finset.range N.T.nBus, jacAct N inp type fixed pol u r c (η c) p).re : ℝ) : ℂ) + (((pol r).v p * (η r p).re : ℝ) : ℂ) * Complex.I := by
      intro p
      rw [Finset.sum_apply, Finset.sum_add_distrib, ← Finset.sum_mul, Complex.re_sum]
      push_cast
      congr 2
      rw [← Complex.ofReal_sum, Finset.sum_ite_eq, if_pos (Finset.mem_range.mpr hr)]
      push_cast
      rfl
    constructor
    · intro h'
      have h2 : ∀ p, _ := fun p => (Complex.ext_iff.mp ((e p).symm.trans (h' p)))
      refine ⟨fun p => ?_, fun hn => absurd hp hn, fun _ p => ?_⟩
      · simpa using (h2 p).1
      · simpa using (h2 p).2
    · rintro ⟨h1, _, h3⟩ p
      rw [e, h1 p, h3 hp p]
      simp
  · simp only [if_neg hp]
    rw [((h.2 r hr).1 hp).1, funext_iff]
    constructor
    · intro h'
      refine ⟨fun p => ?_, fun _ p => ?_, fun hq => absurd hq hp⟩
      · rw [← h' p, Finset.sum_apply]
      · rw [← h' p, Finset.sum_apply]
    · rintro ⟨h1, h2, _⟩ p
      rw [Finset.sum_apply]
      exact Complex.ext (h1 p) (h2 hp p)

end PGM.NewtonPf
