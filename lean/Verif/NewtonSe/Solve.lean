import Verif.NewtonSe.Weak

/-!
# The injections, and what the sparse solver returns

Lemmas for C55.
-/

namespace PGM.NewtonSe

open PGM.YBus PGM.Lu PGM.PowerFlow PGM.StateEst Matrix
open PGM.NewtonPf (RM Polar phasor)

variable {s : Symm}

/-! ## Injections -/

theorem parts_sum {A : Type} (l : Finset A) (f : A → CV s) : parts (∑ a ∈ l, f a) = ∑ a ∈ l, parts (f a) := by
  classical
  induction l using Finset.induction_on with
  | empty => exact parts_zero
  | insert a l ha ih => rw [Finset.sum_insert ha, Finset.sum_insert ha, parts_add, ih]

/-- The derivatives of the injection of a bus. -/
noncomputable def injSlope (T : Topo) (P : Param (CM s)) (x : Nat → Polar s) (r : Nat) (d : Nat → QV s) : QV s :=
  ∑ c ∈ Finset.range T.nBus,
    ((jacobian (hmForm (nodal T P r c) (phasor (x r)) (phasor (x c))) (scaleCols (hmForm (nodal T P r c) (phasor (x r)) (phasor (x c))) (x c).v)).mulVec
      (d c) +
    (diagonalPart (fun p => ((1 / (x r).v p : ℝ) : ℂ) * sumRow (hmForm (nodal T P r c) (phasor (x r)) (phasor (x c))) p)
      (sumRow (hmForm (nodal T P r c) (phasor (x r)) (phasor (x c))))).mulVec (d r))

/-- The power that a bus takes from its injection. -/
noncomputable def injPower (T : Topo) (P : Param (CM s)) (r : Nat) (x : Nat → Polar s) : CV s :=
  flowPower x (some r) (nodalCurrent T P (phasors x) r)

theorem injection_linearises (T : Topo) (P : Param (CM s)) {x : Nat → Polar s} (hx : NonZero T.nBus x) {r : Nat} (hr : r < T.nBus) :
    Linearises (injPower T P r) x fun d => injSlope T P x r (vecs d) := by
  intro d
  refine ⟨fun p => phasor (x r) p * rel (x r) (d r) p * star (nodalCurrent T P (phasors x) r p) +
    phasor (x r) p * star (nodalCurrent T P (fun c => phasor (x c) * rel (x c) (d c)) r p), fun p => ?_, ?_⟩
  · have h1 := deriv_phasors' x d r (hx r hr) p
    have h2 : HasDerivAt (fun t => nodalCurrent T P (phasors (move x d t)) r p)
        (nodalCurrent T P (fun c => phasor (x c) * rel (x c) (d c)) r p) 0 := by
      unfold nodalCurrent
      simp only [Finset.sum_apply]
      exact HasDerivAt.fun_sum fun c hc => deriv_mulVec (nodal T P r c) _ _ (deriv_phasors' x d c (hx c (Finset.mem_range.mp hc))) p
    refine HasDerivAt.congr_deriv (h1.mul h2.star) (Eq.symm ?_)
    simp only [move_zero, phasors_eq, Pi.mul_apply]
  · show injSlope T P x r (vecs d) = _
    unfold injSlope
    have e : ∀ c, (jacobian (hmForm (nodal T P r c) (phasor (x r)) (phasor (x c)))
        (scaleCols (hmForm (nodal T P r c) (phasor (x r)) (phasor (x c))) (x c).v)).mulVec (vecs d c) +
      (diagonalPart (fun p => ((1 / (x r).v p : ℝ) : ℂ) * sumRow (hmForm (nodal T P r c) (phasor (x r)) (phasor (x c))) p)
        (sumRow (hmForm (nodal T P r c) (phasor (x r)) (phasor (x c))))).mulVec (vecs d r) =
      parts fun p => phasor (x r) p * rel (x r) (d r) p * star ((nodal T P r c).mulVec (phasor (x c)) p) +
        phasor (x r) p * star ((nodal T P r c).mulVec (phasor (x c) * rel (x c) (d c)) p) := by
      intro c
      show _ *ᵥ vec (d c) + _ *ᵥ vec (d r) = _
      rw [hm_act, diagonalPart_act, ← parts_add]
      congr 1
      funext p
      simp only [Pi.add_apply, sumRow_hm, rel]
      ring
    rw [Finset.sum_congr rfl fun c _ => e c, ← parts_sum]
    congr 1
    funext p
    simp only [Finset.sum_apply, nodalCurrent, Finset.sum_add_distrib, star_sum, Finset.mul_sum]
    rfl

theorem injSlope_add (T : Topo) (P : Param (CM s)) (x : Nat → Polar s) (r : Nat) (d e : Nat → QV s) :
    injSlope T P x r (d + e) = injSlope T P x r d + injSlope T P x r e := by
  unfold injSlope
  rw [← Finset.sum_add_distrib]
  refine Finset.sum_congr rfl fun c _ => ?_
  simp only [Pi.add_apply, mulVec_add]
  abel

theorem injTerm_zero (o : Option (PowerM s)) (x : Nat → Polar s) (d : Nat → QV s) {r c : Nat} (hne : r ≠ c) : injTerm 0 o x d r c = 0 := by
  unfold injTerm
  cases o with
  | none => rfl
  | some m =>
    simp only [if_neg hne, add_zero]
    unfold injectionRowTerm
    have h0 : hmForm (0 : CM s) (phasor (x r)) (phasor (x c)) = 0 := by
      ext p q
      simp [hmForm]
    have h1 : scaleCols (0 : CM s) (x c).v = 0 := by
      ext p q
      simp [scaleCols]
    have h2 : sumRow (0 : CM s) = 0 := by
      funext p
      simp [sumRow]
    have h3 : jacobian (0 : CM s) 0 = 0 := by
      ext i j
      rcases i with i | i <;> rcases j with j | j <;> simp [jacobian, reM, imM]
    have h4 : diagonalPart (fun p => ((1 / (x r).v p : ℝ) : ℂ) * (0 : CV s) p) 0 = 0 := by
      ext i j
      rcases i with i | i <;> rcases j with j | j <;> simp [diagonalPart]
    rw [h0, h1, h2, h3, h4, parts_zero]
    simp

theorem entryInj_eq {N : SeNet s} (hN : N.Valid) (M : Measured s) (x : Nat → Polar s) (d : Nat → QV s) {r k : Nat} (hr : r < N.T.nBus)
    (hk : k ∈ rowEntries N.S r) :
    entryInj N M x d r k = injTerm (nodal N.T N.y.param r (colOf N.S k)) (M.injection r) x d r (colOf N.S k) := by
  have he := (mem_entries hN hr).mp hk
  unfold entryInj
  by_cases hY : InY N.T r (colOf N.S k)
  · obtain ⟨dd, h1, h2⟩ := ((net_structure hN).map.2 _ _ _ he).1 hY
    rw [h1, Option.getD_some]
    have hadm : N.y.admittance[dd]?.getD 0 = nodal N.T N.y.param r (colOf N.S k) := by
      rw [hN.coherent.value dd (entry_elements hN.topo hN.structure_ h2).1, entry_is_nodal hN.topo hN.structure_ _ h2]
      rfl
    rw [← hadm]
  · rw [((net_structure hN).map.2 _ _ _ he).2 hY, nodal_zero _ hY]
    rw [injTerm_zero _ _ _ fun e => hY (Or.inl e)]
    rfl

/-- **The second half of the equations.** -/
theorem second_eq {N : SeNet s} (hN : N.Valid) (M : Measured s) (x : Nat → Polar s) (d : Nat → QV s) {r : Nat} (hr : r < N.T.nBus) :
    ((rowEntries N.S r).map (entryInj N M x d r)).sum =
      match M.injection r with
      | some m => parts (m.value - injPower N.T N.y.param r x) - injSlope N.T N.y.param x r d
      | none => 0 := by
  rw [row_sum hN hr _ (fun c => injTerm (nodal N.T N.y.param r c) (M.injection r) x d r c) (fun k hk => entryInj_eq hN M x d hr hk) ?_]
  · cases M.injection r with
    | none => simp [injTerm]
    | some m =>
      simp only [injTerm]
      rw [Finset.sum_add_distrib, Finset.sum_ite_eq, if_pos (Finset.mem_range.mpr hr), parts_sub]
      have : injPower N.T N.y.param r x = ∑ c ∈ Finset.range N.T.nBus, sumRow (hmForm (nodal N.T N.y.param r c) (phasor (x r)) (phasor (x c))) := by
        funext p
        unfold injPower flowPower nodalCurrent
        simp only [Finset.sum_apply, sumRow_hm, star_sum, Finset.mul_sum]
        rfl
      rw [this, parts_sum]
      unfold injSlope injectionRowTerm
      rw [Finset.sum_sub_distrib, Finset.sum_sub_distrib, Finset.sum_neg_distrib, Finset.sum_add_distrib]
      abel
  · intro c hl
    have hY : ¬ InY N.T r c := fun h => hl (Or.inl h)
    rw [nodal_zero _ hY, injTerm_zero _ _ _ fun e => hY (Or.inl e)]

/-! ## Blocks -/

open Classical in
/-- The block at a position. -/
noncomputable def blockAt (S : YBus.Structure) (x : Sys s) (r c : Nat) : Block s :=
  if h : ∃ k, EntryAt S.rowIndptrLu S.colIndicesLu r c k then getB x h.choose else .zero

theorem blockAt_entry {N : SeNet s} (hN : N.Valid) (x : Sys s) {r c k : Nat} (h : EntryAt N.S.rowIndptrLu N.S.colIndicesLu r c k) :
    blockAt N.S x r c = getB x k := by
  unfold blockAt
  have hex : ∃ k, EntryAt N.S.rowIndptrLu N.S.colIndicesLu r c k := ⟨k, h⟩
  rw [dif_pos hex, PowerFlow.entry_unique (net_structure hN).lu hex.choose_spec h]

theorem blockAt_none {N : SeNet s} (hN : N.Valid) (x : Sys s) {r c : Nat} (hr : r < N.T.nBus) (h : ¬ InLu N.T r c) :
    blockAt N.S x r c = .zero := by
  unfold blockAt
  rw [dif_neg fun hex => h (((net_structure hN).lu.pattern r hr c).mp hex)]

theorem zero_toBlk : (Block.zero : Block s).toBlk = 0 := by
  unfold Block.toBlk Block.zero
  ext i j
  simp only [submatrix_apply, Matrix.zero_apply]
  rcases (slot s).symm i with a | a <;> rcases (slot s).symm j with b | b <;> rfl

theorem matrixOf_eq {N : SeNet s} (hN : N.Valid) (x : Sys s) (r c : Nat) :
    matrixOf (luPattern N.S) (x.gain.map Block.toBlk) r c = (blockAt N.S x r c).toBlk := by
  by_cases hex : ∃ k, EntryAt N.S.rowIndptrLu N.S.colIndicesLu r c k
  · unfold matrixOf blockAt
    rw [dif_pos hex]
    rw [dif_pos (show ∃ i, EntryAt (luPattern N.S).rowIndptr (luPattern N.S).colIndices r c i from hex)]
    rw [List.getElem?_map]
    unfold getB
    have : ∀ o : Option (Block s), (o.map Block.toBlk).getD 0 = (o.getD .zero).toBlk := by
      intro o
      cases o with
      | none => exact zero_toBlk.symm
      | some b => rfl
    rw [this]
    rfl
  · unfold matrixOf blockAt
    rw [dif_neg hex, dif_neg (show ¬ ∃ i, EntryAt (luPattern N.S).rowIndptr (luPattern N.S).colIndices r c i from hex), zero_toBlk]

theorem toBlk_act (b : Block s) (v : Fin ((s.phases + s.phases) + (s.phases + s.phases)) → ℝ) :
    b.toBlk.mulVec v = Rhs.toVec ⟨b.g.mulVec (ofVec v).eta + b.qt.mulVec (ofVec v).tau, b.q.mulVec (ofVec v).eta + b.r.mulVec (ofVec v).tau⟩ := by
  unfold Block.toBlk
  rw [submatrix_mulVec_equiv]
  have : v ∘ (slot s).symm.symm = Sum.elim (ofVec v).eta (ofVec v).tau := by
    funext i
    cases i <;> rfl
  rw [this, fromBlocks_mulVec]
  rfl

theorem toVec_inj {a b : Rhs s} : a.toVec = b.toVec ↔ a.eta = b.eta ∧ a.tau = b.tau := by
  constructor
  · intro h
    refine ⟨funext fun i => ?_, funext fun i => ?_⟩
    · have := congrFun h (slot s (.inl i))
      simpa [Rhs.toVec] using this
    · have := congrFun h (slot s (.inr i))
      simpa [Rhs.toVec] using this
  · rintro ⟨h1, h2⟩
    unfold Rhs.toVec
    rw [h1, h2]

theorem ofVec_toVec (a : Rhs s) : ofVec a.toVec = a := by
  unfold ofVec Rhs.toVec
  simp only [Equiv.symm_apply_apply, Sum.elim_inl, Sum.elim_inr]

theorem toVec_sum {A : Type} (l : Finset A) (f g : A → QV s) :
    ∑ a ∈ l, Rhs.toVec ⟨f a, g a⟩ = Rhs.toVec ⟨∑ a ∈ l, f a, ∑ a ∈ l, g a⟩ := by
  funext i
  rw [Finset.sum_apply]
  unfold Rhs.toVec
  rcases (slot s).symm i with j | j <;> simp

/-- The equations of all rows. -/
def RowEqs (N : SeNet s) (x : Sys s) (z : Nat → Rhs s) : Prop :=
  ∀ r, r < N.T.nBus →
    ∑ c ∈ Finset.range N.T.nBus, ((blockAt N.S x r c).g.mulVec (z c).eta + (blockAt N.S x r c).qt.mulVec (z c).tau) = (x.rhs r).eta ∧
    ∑ c ∈ Finset.range N.T.nBus, ((blockAt N.S x r c).q.mulVec (z c).eta + (blockAt N.S x r c).r.mulVec (z c).tau) = (x.rhs r).tau

theorem system_iff {N : SeNet s} (hN : N.Valid) (x : Sys s) (y : List (Fin ((s.phases + s.phases) + (s.phases + s.phases)) → ℝ)) :
    SolvesSystem N.T.nBus (matrixOf (luPattern N.S) (x.gain.map Block.toBlk)) y (rhsList N.T.nBus x) ↔
      y.length = N.T.nBus ∧ RowEqs N x fun c => ofVec (y[c]?.getD 0) := by
  unfold SolvesSystem RowEqs
  refine and_congr_right fun _ => forall_congr' fun r => forall_congr' fun hr => ?_
  have h1 : (∀ t, product N.T.nBus (matrixOf (luPattern N.S) (x.gain.map Block.toBlk)) y r t = at' (rhsList N.T.nBus x) r t) ↔
      ∑ c ∈ Finset.range N.T.nBus, (matrixOf (luPattern N.S) (x.gain.map Block.toBlk) r c).mulVec (y[c]?.getD 0) = (x.rhs r).toVec := by
    rw [funext_iff]
    refine forall_congr' fun t => ?_
    have e1 : at' (rhsList N.T.nBus x) r t = (x.rhs r).toVec t := by
      unfold at' rhsList
      rw [List.getElem?_map, List.getElem?_range hr]
      rfl
    rw [e1, Finset.sum_apply]
    rfl
  rw [h1]
  simp only [matrixOf_eq hN, toBlk_act]
  rw [toVec_sum, toVec_inj]

theorem gain_holds {N : SeNet s} (hN : N.Valid) {x : Sys s} (hx : x.gain.length = N.S.colIndicesLu.length) :
    Holds (luPattern N.S) N.T.nBus (InLu N.T) (x.gain.map Block.toBlk) (matrixOf (luPattern N.S) (x.gain.map Block.toBlk)) :=
  matrixOf_holds (structure_valid hN.topo hN.fill hN.structure_) _ (by rw [List.length_map, hx]; rfl)

/-- The pivots of the factorisation are not perturbed. -/
def Exact (N : SeNet s) (use : Bool) (perms : List (BlockPerm ((s.phases + s.phases) + (s.phases + s.phases)))) (x : Sys s) : Prop :=
  use = false ∨ ∀ f, prefactorize (luPattern N.S) use (x.gain.map Block.toBlk) perms = .ok f → f.perturbed = false

/-- What the sparse solver returns is the only solution of the equations. -/
theorem solve_spec {N : SeNet s} (hN : N.Valid) {x : Sys s} (hx : x.gain.length = N.S.colIndicesLu.length) {use : Bool}
    {perms : List (BlockPerm ((s.phases + s.phases) + (s.phases + s.phases)))} (hp : perms.length = N.T.nBus) (hex : Exact N use perms x)
    {z : Nat → Rhs s} (h : solve N use perms x = .ok z) :
    RowEqs N x z ∧ ∀ z', RowEqs N x z' → ∀ b, b < N.T.nBus → z' b = z b := by
  have hv := structure_valid hN.topo hN.fill hN.structure_
  have hA := gain_holds hN hx
  have hb : (rhsList N.T.nBus x).length = N.T.nBus := by simp [rhsList]
  unfold solve at h
  cases hf : prefactorize (luPattern N.S) use (x.gain.map Block.toBlk) perms with
  | error e =>
    unfold factorizeAndSolve at h
    rw [hf] at h
    simp [bind, Except.bind] at h
  | ok f =>
    have hex' : f.perturbed = false ∨ use = false := by
      rcases hex with h | h
      · exact Or.inr h
      · exact Or.inl (h f hf)
    have hflag : f.perturbed = false := by
      rcases hex' with h | rfl
      · exact h
      · exact prefactorize_flag hv _ _ perms hA.zero hA.rep hp f hf
    obtain ⟨_, ⟨y, hy, hs⟩, hu⟩ := solve_unperturbed hv use _ _ perms hA hp f hf hex' (rhsList N.T.nBus x) (rhsList N.T.nBus x) hb hb
    have hfs : factorizeAndSolve (luPattern N.S) use (x.gain.map Block.toBlk) perms (rhsList N.T.nBus x) = .ok y := by
      unfold factorizeAndSolve
      rw [hf]
      simp only [bind, Except.bind]
      rw [hflag]
      exact hy
    rw [hfs] at h
    have hz : z = fun b => ofVec (y[b]?.getD 0) := (Except.ok.inj h).symm
    refine ⟨hz ▸ ((system_iff hN x y).mp hs).2, fun z' hz' b hb' => ?_⟩
    have hget : ∀ c, c < N.T.nBus → ((List.range N.T.nBus).map fun b => (z' b).toVec)[c]?.getD 0 = (z' c).toVec := by
      intro c hc
      rw [List.getElem?_map, List.getElem?_range hc]
      rfl
    have hs' : SolvesSystem N.T.nBus (matrixOf (luPattern N.S) (x.gain.map Block.toBlk)) ((List.range N.T.nBus).map fun b => (z' b).toVec)
        (rhsList N.T.nBus x) := by
      rw [system_iff hN]
      refine ⟨by simp, fun r hr => ?_⟩
      have := hz' r hr
      rw [← this.1, ← this.2]
      constructor <;> refine Finset.sum_congr rfl fun c hc => ?_ <;> dsimp only <;> rw [hget c (Finset.mem_range.mp hc), ofVec_toVec]
    have := hu _ _ hs' hs
    rw [hz, ← this]
    simp only [hget b hb', ofVec_toVec]

end PGM.NewtonSe
