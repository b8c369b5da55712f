import Verif.PowerFlow.Kirchhoff

/-!
# The linear and the iterative current method (C17)
-/

namespace PGM.PowerFlow

open PGM.YBus PGM.Component

variable {s : Symm}

/-! ## Specification -/

/-- The product of a row of a matrix on the factorised structure with a vector. -/
noncomputable def luRow (N : PfNet s) (mat : List (CM s)) (u : Nat → CV s) (r : Nat) : CV s :=
  (List.range' (N.S.rowIndptrLu[r]?.getD 0) (N.S.rowIndptrLu[r + 1]?.getD 0 - N.S.rowIndptrLu[r]?.getD 0)).foldl
    (fun acc k => acc + dot s (mat[k]?.getD 0) (u (N.S.colIndicesLu[k]?.getD 0))) 0

/-- The voltages solve the equations exactly. -/
def Solves (N : PfNet s) (x : Lin s) (u : Nat → CV s) : Prop := ∀ r, r < N.T.nBus → luRow N x.mat u r = x.rhs r

/-- The current of a source with internal admittance at a bus voltage. -/
noncomputable def physicalSource (N : PfNet s) (inp : PfInput s) (u : CV s) (k : Nat) : CV s :=
  dot s (yRef s (N.y1 k) (N.y0 k)) (spread s (inp.source k) - u)

/-! ## Loops over buses -/

theorem fold_set_add {A : Type} (d : Nat) (f : A → CM s) (step : Lin s → A → Lin s)
    (hstep : ∀ x k, step x k = { x with mat := x.mat.set d (x.mat[d]?.getD 0 + f k) }) (ks : List A) (x : Lin s) :
    let r := ks.foldl step x
    r.rhs = x.rhs ∧ r.mat.length = x.mat.length ∧ (∀ j, j ≠ d → r.mat[j]? = x.mat[j]?) ∧
    (d < x.mat.length → r.mat[d]? = some (x.mat[d]?.getD 0 + (ks.map f).sum)) := by
  induction ks generalizing x with
  | nil =>
    refine ⟨rfl, rfl, fun _ _ => rfl, fun h => ?_⟩
    simp [List.getElem?_eq_getElem h]
  | cons a ks ih =>
    simp only [List.foldl_cons]
    obtain ⟨i1, i2, i3, i4⟩ := ih (step x a)
    rw [hstep] at i1 i2 i3 i4 ⊢
    refine ⟨i1, by rw [i2]; simp, fun j hj => by rw [i3 j hj, List.getElem?_set_ne (Ne.symm hj)], fun h => ?_⟩
    rw [i4 (by simpa using h), List.getElem?_set_self h]
    simp [add_assoc]

theorem fold_rhs_add {A : Type} (b : Nat) (f : A → CV s) (step : Lin s → A → Lin s)
    (hstep : ∀ x k, step x k = { x with rhs := Function.update x.rhs b (x.rhs b + f k) }) (ks : List A) (x : Lin s) :
    let r := ks.foldl step x
    r.mat = x.mat ∧ r.rhs = Function.update x.rhs b (x.rhs b + (ks.map f).sum) := by
  induction ks generalizing x with
  | nil => simp
  | cons a ks ih =>
    simp only [List.foldl_cons]
    obtain ⟨i1, i2⟩ := ih (step x a)
    rw [hstep] at i1 i2 ⊢
    refine ⟨i1, ?_⟩
    rw [i2]
    simp [add_assoc]

/-- What one bus contributes. -/
def BusStep (N : PfNet s) (D : Nat → CM s) (R : Nat → CV s) (g : Lin s → Nat → Lin s) : Prop :=
  ∀ x b, (g x b).rhs = Function.update x.rhs b (x.rhs b + R b) ∧ (g x b).mat.length = x.mat.length ∧
    (∀ j, j ≠ N.S.diagLu[b]?.getD 0 → (g x b).mat[j]? = x.mat[j]?) ∧
    (N.S.diagLu[b]?.getD 0 < x.mat.length →
      (g x b).mat[N.S.diagLu[b]?.getD 0]? = some (x.mat[N.S.diagLu[b]?.getD 0]?.getD 0 + D b))

theorem bus_loop {N : PfNet s} {D : Nat → CM s} {R : Nat → CV s} {g : Lin s → Nat → Lin s} (hg : BusStep N D R g)
    (l : List Nat) (hn : l.Nodup) (hinj : ∀ b ∈ l, ∀ b' ∈ l, N.S.diagLu[b]?.getD 0 = N.S.diagLu[b']?.getD 0 → b = b') (x : Lin s) :
    let r := l.foldl g x
    r.mat.length = x.mat.length ∧
    (∀ b, r.rhs b = if b ∈ l then x.rhs b + R b else x.rhs b) ∧
    (∀ j, (∀ b ∈ l, N.S.diagLu[b]?.getD 0 ≠ j) → r.mat[j]? = x.mat[j]?) ∧
    (∀ b ∈ l, N.S.diagLu[b]?.getD 0 < x.mat.length →
      r.mat[N.S.diagLu[b]?.getD 0]? = some (x.mat[N.S.diagLu[b]?.getD 0]?.getD 0 + D b)) := by
  induction l generalizing x with
  | nil => simp
  | cons a l ih =>
    rw [List.nodup_cons] at hn
    simp only [List.foldl_cons]
    obtain ⟨i1, i2, i3, i4⟩ := ih hn.2 (fun b hb b' hb' => hinj b (by simp [hb]) b' (by simp [hb'])) (g x a)
    obtain ⟨g1, g2, g3, g4⟩ := hg x a
    refine ⟨i1.trans g2, fun b => ?_, fun j hj => ?_, fun b hb hlt => ?_⟩
    · rw [i2, g1]
      by_cases hba : b = a
      · subst hba
        simp [hn.1]
      · simp [hba]
    · rw [i3 j (fun b hb => hj b (by simp [hb])), g3 j (fun e => hj a (by simp) e.symm)]
    · rw [List.mem_cons] at hb
      rcases hb with rfl | hb
      · rw [i3 _ (fun b' hb' e => hn.1 ((hinj b' (by simp [hb']) b (by simp) e) ▸ hb')), g4 hlt]
      · have hne : N.S.diagLu[b]?.getD 0 ≠ N.S.diagLu[a]?.getD 0 := by
          intro e
          have := hinj b (by simp [hb]) a (by simp) e
          exact hn.1 (this ▸ hb)
        rw [i4 b hb (by rw [g2]; exact hlt), g3 _ hne]

/-! ## The row of the equations -/

theorem csr_row_unique {n : Nat} {ip cols : List Nat} {pat : Nat → Nat → Prop} (I : IsCsr n ip cols pat) {r c r' c' k : Nat}
    (hr : r < n) (hr' : r' < n) (h : EntryAt ip cols r c k) (h' : EntryAt ip cols r' c' k) : r = r' ∧ c = c' := by
  obtain ⟨a, z, h1, h2, h3, h4, h5⟩ := h
  obtain ⟨a', z', h1', h2', h3', h4', h5'⟩ := h'
  have mono : ∀ d q v w, ip[q]? = some v → ip[q + d]? = some w → q + d ≤ n → v ≤ w := by
    intro d
    induction d with
    | zero => intro q v w e1 e2 _; rw [Nat.add_zero, e1] at e2; injection e2 with e2; omega
    | succ d ih =>
      intro q v w e1 e2 hle
      obtain ⟨x, y, f1, f2, f3⟩ := I.mono (q + d) (by omega)
      have e2' : ip[q + d + 1]? = some w := e2
      rw [e2'] at f2
      injection f2 with f2
      have := ih q v x e1 f1 (by omega)
      omega
  have hrr : r = r' := by
    rcases Nat.lt_trichotomy r r' with hlt | heq | hlt
    · have e := mono (r' - (r + 1)) (r + 1) z a' h2 (by rw [show r + 1 + (r' - (r + 1)) = r' by omega]; exact h1') (by omega)
      omega
    · exact heq
    · have e := mono (r - (r' + 1)) (r' + 1) z' a h2' (by rw [show r' + 1 + (r - (r' + 1)) = r by omega]; exact h1) (by omega)
      omega
  refine ⟨hrr, ?_⟩
  rw [h5] at h5'
  exact Option.some.inj h5'

theorem inLu_range {T : Topo} (hv : T.Valid) {r : Nat} (hr : r < T.nBus) (c : Nat) (h : InLu T r c) : c < T.nBus := by
  rcases h with h | h | h
  · exact inY_range hv hr c h
  · exact (hv.fillRange _ h).2
  · exact (hv.fillRange _ h).1

/-- The rows of equations that the loops over the buses build: the admittance matrix, and a term on the diagonal. -/
theorem row_eq {N : PfNet s} (hN : N.Valid) {D : Nat → CM s} {R : Nat → CV s} {g : Lin s → Nat → Lin s} (hg : BusStep N D R g)
    (rhs : Nat → CV s) (u : Nat → CV s) (r : Nat) (hr : r < N.T.nBus) :
    let x := (List.range N.T.nBus).foldl g ⟨copyYBus N, rhs⟩
    luRow N x.mat u r = busCurrent N.S N.y (dot s) u r + dot s (D r) (u r) ∧ x.rhs r = rhs r + R r := by
  obtain ⟨S', hS', I⟩ := structure_correct hN.topo
  have hst := hN.structure_
  rw [hst] at hS'
  injection hS' with hS'
  rw [← hS'] at I
  clear hS'
  have hc := coherent_of_valid hN
  have hdiag : ∀ b, b < N.T.nBus → EntryAt N.S.rowIndptrLu N.S.colIndicesLu b b (N.S.diagLu[b]?.getD 0) := by
    intro b hb
    obtain ⟨k, h1, h2⟩ := I.diag.2 b hb
    rw [h1]; exact h2
  have hinj : ∀ b ∈ List.range N.T.nBus, ∀ b' ∈ List.range N.T.nBus,
      N.S.diagLu[b]?.getD 0 = N.S.diagLu[b']?.getD 0 → b = b' := by
    intro b hb b' hb' e
    rw [List.mem_range] at hb hb'
    have h1 := hdiag b hb
    have h2 := hdiag b' hb'
    rw [← e] at h2
    exact (csr_row_unique I.lu hb hb' h1 h2).1
  simp only
  obtain ⟨l1, l2, l3, l4⟩ := bus_loop hg (List.range N.T.nBus) List.nodup_range hinj ⟨copyYBus N, rhs⟩
  set x := (List.range N.T.nBus).foldl g ⟨copyYBus N, rhs⟩
  refine ⟨?_, by rw [l2, if_pos (List.mem_range.mpr hr)]⟩
  have hcopy : ∀ r c k, EntryAt N.S.rowIndptrLu N.S.colIndicesLu r c k → (copyYBus N)[k]? = some (nodal N.T N.y.param r c) := by
    intro r c k hk
    unfold copyYBus
    rw [List.getElem?_map]
    obtain ⟨m1, m2⟩ := I.map.2 r c k hk
    by_cases hy : InY N.T r c
    · obtain ⟨k', e1, e2⟩ := m1 hy
      rw [e1]
      simp only [Option.map_some]
      rw [hc.value k' (entry_elements hN.topo hst e2).1, entry_is_nodal hN.topo hst _ e2, Option.getD_some]
    · rw [m2 hy, nodal_zero _ hy]
      rfl
  have hrow : luRow N x.mat u r = ∑ c ∈ Finset.range N.T.nBus,
      dot s (nodal N.T N.y.param r c + if r = c then D r else 0) (u c) := by
    unfold luRow
    refine csr_row I.lu r hr (inLu_range hN.topo hr) x.mat (fun c => nodal N.T N.y.param r c + if r = c then D r else 0)
      (fun c k hk => ?_) (fun c hc' => ?_) (dot s) u
    · by_cases hrc : r = c
      · subst hrc
        have hkd : k = N.S.diagLu[r]?.getD 0 := by
          rcases Nat.lt_trichotomy k (N.S.diagLu[r]?.getD 0) with h | h | h
          · have := I.lu.sorted r r k r _ hk (hdiag r hr) h; omega
          · exact h
          · have := I.lu.sorted r r _ r k (hdiag r hr) hk h; omega
        subst hkd
        have hcp := hcopy r r _ hk
        rw [l4 r (List.mem_range.mpr hr) (List.getElem?_eq_some_iff.mp hcp).1, hcp, Option.getD_some, if_pos rfl]
      · rw [l3 k (fun b hb e => ?_), hcopy r c k hk, if_neg hrc, add_zero]
        rw [List.mem_range] at hb
        have h1 := hdiag b hb
        rw [e] at h1
        obtain ⟨e1, e2⟩ := csr_row_unique I.lu hr hb hk h1
        exact hrc (e1.trans e2.symm)
    · rw [nodal_zero _ (fun h => hc' (Or.inl h)), if_neg (fun e => hc' (Or.inl (Or.inl e))), add_zero]
  rw [hrow, busCurrent_eq hN.topo hst hc (dot s) u r hr]
  simp only [map_add, AddMonoidHom.add_apply, Finset.sum_add_distrib]
  congr 1
  rw [Finset.sum_eq_single_of_mem r (Finset.mem_range.mpr hr)]
  · simp
  · intro c _ hne
    rw [if_neg (Ne.symm hne)]
    simp

/-! ## The equations of the two methods -/

theorem linear_step (N : PfNet s) (inp : PfInput s) :
    BusStep N (fun b => ((onBus N.loadBus b).map fun k => Matrix.diagonal (-(star (inp.sInj k)))).sum +
        ((onBus N.sourceBus b).map fun k => yRef s (N.y1 k) (N.y0 k)).sum)
      (fun b => ((onBus N.sourceBus b).map fun k => dot s (yRef s (N.y1 k) (N.y0 k)) (spread s (inp.source k))).sum)
      (linearBus N inp) := by
  intro x b
  unfold linearBus
  simp only
  obtain ⟨a1, a2, a3, a4⟩ := fold_set_add (N.S.diagLu[b]?.getD 0) (fun k => Matrix.diagonal (-(star (inp.sInj k))))
    (addLinearLoad N inp b) (fun _ _ => rfl) (onBus N.loadBus b) x
  set x1 := (onBus N.loadBus b).foldl (addLinearLoad N inp b) x
  have both : ∀ (ks : List Nat) (x : Lin s),
      ks.foldl (fun x k => addSourceRhs N inp b (addSourceDiag N b x k) k) x =
        ⟨(ks.foldl (addSourceDiag N b) x).mat, (ks.foldl (addSourceRhs N inp b) x).rhs⟩ := by
    intro ks
    induction ks with
    | nil => intro x; rfl
    | cons k ks ih =>
      intro x
      rw [List.foldl_cons, ih, List.foldl_cons, List.foldl_cons]
      congr 1
      · have := (fold_set_add (N.S.diagLu[b]?.getD 0) (fun k => yRef s (N.y1 k) (N.y0 k)) (addSourceDiag N b)
          (fun _ _ => rfl) ks)
        -- the matrix does not depend on the right-hand side
        have irr : ∀ (ks : List Nat) (m : List (CM s)) (r r' : Nat → CV s),
            (ks.foldl (addSourceDiag N b) ⟨m, r⟩).mat = (ks.foldl (addSourceDiag N b) ⟨m, r'⟩).mat := by
          intro ks
          induction ks with
          | nil => intros; rfl
          | cons k ks ih => intro m r r'; exact ih _ r r'
        exact irr ks _ _ _
      · have irr : ∀ (ks : List Nat) (m m' : List (CM s)) (r : Nat → CV s),
            (ks.foldl (addSourceRhs N inp b) ⟨m, r⟩).rhs = (ks.foldl (addSourceRhs N inp b) ⟨m', r⟩).rhs := by
          intro ks
          induction ks with
          | nil => intros; rfl
          | cons k ks ih => intro m m' r; exact ih m m' _
        exact irr ks _ _ _
  rw [both]
  obtain ⟨b1, b2, b3, b4⟩ := fold_set_add (N.S.diagLu[b]?.getD 0) (fun k => yRef s (N.y1 k) (N.y0 k)) (addSourceDiag N b)
    (fun _ _ => rfl) (onBus N.sourceBus b) x1
  obtain ⟨c1, c2⟩ := fold_rhs_add b (fun k => dot s (yRef s (N.y1 k) (N.y0 k)) (spread s (inp.source k))) (addSourceRhs N inp b)
    (fun _ _ => rfl) (onBus N.sourceBus b) x1
  refine ⟨by simp only; rw [c2, a1], by simp only; rw [b2, a2], fun j hj => by simp only; rw [b3 j hj, a3 j hj], fun h => ?_⟩
  simp only
  rw [b4 (by rw [a2]; exact h), a4 h, Option.getD_some, add_assoc]

/-- The current of a load in the iterative method. -/
noncomputable def loadRhs (inp : PfInput s) (type : Nat → LoadType) (u : CV s) (k : Nat) : CV s :=
  match type k with
  | .constPq => star (inp.sInj k / u)
  | .constY => star (inp.sInj k) * u
  | .constI => star (inp.sInj k * (fun p => ((‖u p‖ : ℝ) : ℂ)) / u)

theorem current_step (N : PfNet s) :
    BusStep N (fun b => ((onBus N.sourceBus b).map fun k => yRef s (N.y1 k) (N.y0 k)).sum) (fun _ => 0)
      (fun x bus => (onBus N.sourceBus bus).foldl (addSourceDiag N bus) x) := by
  intro x b
  obtain ⟨b1, b2, b3, b4⟩ := fold_set_add (N.S.diagLu[b]?.getD 0) (fun k => yRef s (N.y1 k) (N.y0 k)) (addSourceDiag N b)
    (fun _ _ => rfl) (onBus N.sourceBus b) x
  exact ⟨by rw [b1]; simp, b2, b3, b4⟩

theorem currentEquations_eq (N : PfNet s) (inp : PfInput s) (type : Nat → LoadType) (u : Nat → CV s) (r : Nat)
    (hr : r < N.T.nBus) :
    (currentEquations N inp type u).mat = (currentMatrix N).mat ∧
    (currentEquations N inp type u).rhs r = (currentMatrix N).rhs r + (((onBus N.loadBus r).map (loadRhs inp type (u r))).sum +
      ((onBus N.sourceBus r).map fun k => dot s (yRef s (N.y1 k) (N.y0 k)) (spread s (inp.source k))).sum) := by
  unfold currentEquations
  have main : ∀ (l : List Nat) (x : Lin s), l.Nodup →
      (l.foldl (fun x bus => (onBus N.sourceBus bus).foldl (addSourceRhs N inp bus)
        ((onBus N.loadBus bus).foldl (addLoadRhs inp type u bus) x)) x).mat = x.mat ∧
      (l.foldl (fun x bus => (onBus N.sourceBus bus).foldl (addSourceRhs N inp bus)
        ((onBus N.loadBus bus).foldl (addLoadRhs inp type u bus) x)) x).rhs r =
        if r ∈ l then x.rhs r + (((onBus N.loadBus r).map (loadRhs inp type (u r))).sum +
      ((onBus N.sourceBus r).map fun k => dot s (yRef s (N.y1 k) (N.y0 k)) (spread s (inp.source k))).sum) else x.rhs r := by
    intro l
    induction l with
    | nil => intro x _; simp
    | cons b l ih =>
      intro x hn
      rw [List.nodup_cons] at hn
      rw [List.foldl_cons]
      obtain ⟨i1, i2⟩ := ih ((onBus N.sourceBus b).foldl (addSourceRhs N inp b)
        ((onBus N.loadBus b).foldl (addLoadRhs inp type u b) x)) hn.2
      obtain ⟨a1, a2⟩ := fold_rhs_add b (loadRhs inp type (u b)) (addLoadRhs inp type u b)
        (fun _ _ => rfl) (onBus N.loadBus b) x
      obtain ⟨c1, c2⟩ := fold_rhs_add b (fun k => dot s (yRef s (N.y1 k) (N.y0 k)) (spread s (inp.source k)))
        (addSourceRhs N inp b) (fun _ _ => rfl) (onBus N.sourceBus b) ((onBus N.loadBus b).foldl (addLoadRhs inp type u b) x)
      refine ⟨by rw [i1, c1, a1], ?_⟩
      rw [i2, c2, a2]
      by_cases hrb : r = b
      · subst hrb
        rw [if_neg hn.1, if_pos (by simp)]
        simp [add_assoc]
      · simp [hrb]
  obtain ⟨m1, m2⟩ := main (List.range N.T.nBus) (currentMatrix N) List.nodup_range
  exact ⟨m1, by rw [m2, if_pos (List.mem_range.mpr hr)]⟩

/-! ## Sources -/

theorem dot_sum (l : List Nat) (f : Nat → CM s) (u : CV s) : dot s (l.map f).sum u = (l.map fun k => dot s (f k) u).sum := by
  induction l with
  | nil => simp
  | cons a l ih => simp [ih]

theorem physical_sum (N : PfNet s) (inp : PfInput s) (l : List Nat) (u : CV s) :
    (l.map (physicalSource N inp u)).sum = (l.map fun k => dot s (yRef s (N.y1 k) (N.y0 k)) (spread s (inp.source k))).sum -
      dot s (l.map fun k => yRef s (N.y1 k) (N.y0 k)).sum u := by
  rw [dot_sum]
  induction l with
  | nil => simp
  | cons a l ih =>
    simp only [List.map_cons, List.sum_cons, ih, physicalSource, map_sub]
    abel

theorem multipleSym_physical (y1 uref : Nat → ℂ) (sources : List Nat) (u : ℂ) (k : Nat) (h : (sources.map y1).sum ≠ 0) :
    multipleSym y1 uref sources (sources.map fun j => y1 j * (uref j - u)).sum k = y1 k * (uref k - u) := by
  have e : ∀ l : List Nat, (l.map fun j => y1 j * (uref j - u)).sum =
      (l.map fun j => uref j * y1 j).sum - (l.map y1).sum * u := by
    intro l
    induction l with
    | nil => simp
    | cons a l ih => simp only [List.map_cons, List.sum_cons, ih]; ring
  unfold multipleSym
  simp only
  rw [e]
  field_simp
  ring

theorem inv_balanced (y1 y0 : ℂ) (v : C3) :
    symMatrixInv.mulVec ((balancedMatrix ((2 * y1 + y0) / 3) ((y0 - y1) / 3)).mulVec v) =
      ![y0 * symMatrixInv.mulVec v 0, y1 * symMatrixInv.mulVec v 1, y1 * symMatrixInv.mulVec v 2] := by
  have h := a_add
  funext i
  simp only [symMatrixInv, balancedMatrix, Matrix.mulVec, dotProduct, Fin.sum_univ_three]
  fin_cases i
  · simp; ring
  · simp; linear_combination ((y0 - y1) * 3⁻¹ * 3⁻¹ * (v 0 + v 1 + v 2)) * h
  · simp; linear_combination ((y0 - y1) * 3⁻¹ * 3⁻¹ * (v 0 + v 1 + v 2)) * h

theorem inv_spread (x : ℂ) : symMatrixInv.mulVec (![x, x * a2, x * a] : C3) = ![0, x, 0] := by
  have := inv_pos
  rw [posSeq_eq] at this
  have e : (![x, x * a2, x * a] : C3) = x • (![1, a2, a] : C3) := by
    funext i; fin_cases i <;> simp
  rw [e, Matrix.mulVec_smul, this]
  funext i; fin_cases i <;> simp

theorem multipleAsym_physical (y1 y0 uref : Nat → ℂ) (sources : List Nat) (u : C3) (k : Nat) (h1 : (sources.map y1).sum ≠ 0)
    (h0 : (sources.map y0).sum ≠ 0) :
    multipleAsym y1 y0 uref sources (sources.map fun j => (balancedMatrix ((2 * y1 j + y0 j) / 3) ((y0 j - y1 j) / 3)).mulVec
      ((![uref j, uref j * a2, uref j * a] : C3) - u)).sum k =
      (balancedMatrix ((2 * y1 k + y0 k) / 3) ((y0 k - y1 k) / 3)).mulVec ((![uref k, uref k * a2, uref k * a] : C3) - u) := by
  set w := symMatrixInv.mulVec u with hw
  have each : ∀ j, symMatrixInv.mulVec ((balancedMatrix ((2 * y1 j + y0 j) / 3) ((y0 j - y1 j) / 3)).mulVec
      ((![uref j, uref j * a2, uref j * a] : C3) - u)) = ![-(y0 j * w 0), y1 j * (uref j - w 1), -(y1 j * w 2)] := by
    intro j
    rw [inv_balanced, Matrix.mulVec_sub, inv_spread, ← hw]
    funext i
    fin_cases i <;> simp
  have tot : ∀ l : List Nat, symMatrixInv.mulVec (l.map fun j => (balancedMatrix ((2 * y1 j + y0 j) / 3) ((y0 j - y1 j) / 3)).mulVec
      ((![uref j, uref j * a2, uref j * a] : C3) - u)).sum =
      ![-((l.map y0).sum * w 0), (l.map fun j => y1 j * (uref j - w 1)).sum, -((l.map y1).sum * w 2)] := by
    intro l
    induction l with
    | nil =>
      simp only [List.map_nil, List.sum_nil, Matrix.mulVec_zero]
      funext i; fin_cases i <;> simp
    | cons a l ih =>
      simp only [List.map_cons, List.sum_cons, Matrix.mulVec_add]
      rw [each, ih]
      funext i
      fin_cases i
      · simp; ring
      · simp
      · simp; ring
  have hs := multipleSym_physical y1 uref sources (w 1) k h1
  unfold multipleSym at hs
  simp only [mul_one_div] at hs
  rw [← sym_inv ((balancedMatrix ((2 * y1 k + y0 k) / 3) ((y0 k - y1 k) / 3)).mulVec ((![uref k, uref k * a2, uref k * a] : C3) - u)),
    each]
  unfold multipleAsym
  simp only
  rw [tot]
  congr 1
  funext i
  fin_cases i
  · simp; field_simp
  · simpa using hs
  · simp; field_simp

theorem physical_sym (N : PfNet .sym) (inp : PfInput .sym) (u : CV .sym) (j : Nat) (p : Fin Symm.sym.phases) :
    physicalSource N inp u j p = N.y1 j * (inp.source j - u p) := by
  have main : ∀ (v : Fin 1 → ℂ) (p : Fin 1), ∑ q : Fin 1, N.y1 j * (inp.source j - v q) = N.y1 j * (inp.source j - v p) := by
    intro v p
    rw [Fin.fin_one_eq_zero p]
    simp
  exact main u p

theorem sourceCurrent_physical (N : PfNet s) (inp : PfInput s) (b : Nat) (hok : N.SourcesOk b) (u : CV s) (k : Nat)
    (hk : N.sourceBus[k]? = some b) :
    sourceCurrent N inp b ((onBus N.sourceBus b).map (physicalSource N inp u)).sum k = physicalSource N inp u k := by
  unfold sourceCurrent
  by_cases h : (onBus N.sourceBus b).length = 1
  · obtain ⟨x, hx⟩ := List.length_eq_one_iff.mp h
    have : k ∈ onBus N.sourceBus b := mem_onBus.mpr hk
    rw [hx, List.mem_singleton] at this
    simp [hx, this]
  · simp only [h, if_false]
    have hlen : 1 < (onBus N.sourceBus b).length := by
      have : (onBus N.sourceBus b).length ≠ 0 :=
        fun e => absurd (mem_onBus.mpr hk) (by rw [List.length_eq_zero_iff.mp e]; simp)
      omega
    obtain ⟨h1, h0⟩ := sourcesOk_iff hok hlen
    cases s with
    | sym =>
      funext p
      have := multipleSym_physical N.y1 inp.source (onBus N.sourceBus b) (u p) k h1
      have e : ((onBus N.sourceBus b).map (physicalSource N inp u)).sum p =
          ((onBus N.sourceBus b).map fun j => N.y1 j * (inp.source j - u p)).sum := by
        rw [list_sum_apply, List.map_map]
        congr 1
        apply List.map_congr_left
        intro j _
        exact physical_sym N inp u j p
      show multipleSym N.y1 inp.source (onBus N.sourceBus b) _ k = _
      rw [e, this, physical_sym]
    | asym => exact multipleAsym_physical N.y1 N.y0 inp.source (onBus N.sourceBus b) u k h1 (h0 rfl)

/-! ## Properties -/

/-- The current of a constant-impedance load. -/
theorem load_current_y (S u : ℂ) (hu : u ≠ 0) : (loadResult .constY S u).2 = star S * u := by
  simp only [loadResult]
  have h : ((‖u‖ * ‖u‖ : ℝ) : ℂ) = u * star u := by
    rw [← sq, ← Complex.normSq_eq_norm_sq]
    exact (Complex.mul_conj u).symm
  rw [h, mul_comm u, ← mul_assoc, mul_div_assoc, div_self hu, mul_one, star_mul, star_star, mul_comm]

theorem no_alloc (N : PfNet s) : AllocOk N (fun _ _ => []) := fun _ _ g hg => by simp at hg

/-- The linear method: if the equations are solved exactly, the results satisfy Kirchhoff's law at every bus, and every reported
source current is the one its internal admittance gives. -/
theorem linear_kirchhoff {N : PfNet s} (hN : N.Valid) (inp : PfInput s) (u : Nat → CV s)
    (hsol : Solves N (linearEquations N inp) u) (b : Nat) (hb : b < N.T.nBus) (hok : N.SourcesOk b) (hu : ∀ p, u b p ≠ 0) :
    let out := pfResult N inp (fun _ => .constY) (fun _ _ => []) u
    Kirchhoff N out b ∧ ∀ k, N.sourceBus[k]? = some b → (out.source k).cur = physicalSource N inp (u b) k := by
  simp only
  obtain ⟨r1, r2⟩ := row_eq hN (linear_step N inp) (fun _ => 0) u b hb
  have hrow := hsol b hb
  unfold linearEquations at hrow
  rw [r1, r2] at hrow
  clear r1 r2
  obtain ⟨p1, p2, p3, p4, p5, p6⟩ := pfResult_bus N inp (fun _ => .constY) _ (no_alloc N) u b hb
  set r := pfResult N inp (fun _ => .constY) (fun _ _ => []) u with hr
  -- the loads
  have hload : ((onBus N.loadBus b).map fun k => (r.load k).cur).sum =
      -(dot s ((onBus N.loadBus b).map fun k => Matrix.diagonal (-(star (inp.sInj k)))).sum (u b)) := by
    rw [dot_sum]
    have : ∀ l : List Nat, (∀ k ∈ l, N.loadBus[k]? = some b) → (l.map fun k => (r.load k).cur).sum =
        -((l.map fun k => dot s (Matrix.diagonal (-(star (inp.sInj k)))) (u b)).sum) := by
      intro l
      induction l with
      | nil => intro _; simp
      | cons k l ih =>
        intro h
        simp only [List.map_cons, List.sum_cons, neg_add]
        rw [ih (fun k hk => h k (by simp [hk])), p6 (fun _ _ => rfl) k (h k (by simp))]
        congr 1
        funext p
        have hup := hu p
        have hd : dot s (Matrix.diagonal (-(star (inp.sInj k)))) (u b) p = -(star (inp.sInj k p)) * u b p := by
          show (Matrix.diagonal (-(star (inp.sInj k)))).mulVec (u b) p = _
          rw [Matrix.mulVec_diagonal]
          rfl
        rw [Pi.neg_apply, hd]
        refine (load_current_y (inp.sInj k p) (u b p) hup).trans ?_
        ring
    exact this _ (fun k hk => mem_onBus.mp hk)
  -- the total current of the sources
  have htot : totalSource N b r = ((onBus N.sourceBus b).map (physicalSource N inp (u b))).sum := by
    unfold totalSource
    rw [p1, p2, star_injection N u b hu, hload, physical_sum]
    rw [map_add, AddMonoidHom.add_apply] at hrow
    rw [zero_add] at hrow
    rw [← hrow]
    abel
  have hsrc : ∀ k, N.sourceBus[k]? = some b → (r.source k).cur = physicalSource N inp (u b) k := by
    intro k hk
    rw [p5 k hk, htot]
    exact sourceCurrent_physical N inp b hok (u b) k hk
  refine ⟨?_, hsrc⟩
  rw [hr, kirchhoff_iff hN inp _ _ (no_alloc N) u b hb, ← hr, atBus_eq, atBus_eq]
  have : (onBus N.sourceBus b).map (fun k => (r.source k).cur) = (onBus N.sourceBus b).map (physicalSource N inp (u b)) :=
    List.map_congr_left (fun k hk => hsrc k (mem_onBus.mp hk))
  rw [this, ← htot]
  unfold totalSource
  rw [sub_add_cancel, p1, p2, star_injection N u b hu]

/-- The reported current of a load at voltage `u`. -/
noncomputable def loadCurrent (inp : PfInput s) (type : Nat → LoadType) (u : CV s) (k : Nat) : CV s :=
  fun p => (loadResult (type k) (inp.sInj k p) (u p)).2

theorem loadRhs_eq (inp : PfInput s) (type : Nat → LoadType) (u : CV s) (k : Nat) (hu : ∀ p, u p ≠ 0) :
    loadRhs inp type u k = loadCurrent inp type u k := by
  funext p
  unfold loadRhs loadCurrent
  cases h : type k with
  | constPq => rfl
  | constY =>
    simp only [Pi.mul_apply, Pi.star_apply]
    rw [load_current_y _ _ (hu p)]
  | constI => rfl

/-- The iterative current method: after an iteration from voltages `u` to voltages `u'`, what is missing in Kirchhoff's law at a bus
without sources is the change of the load currents in that iteration. -/
theorem iterative_residual {N : PfNet s} (hN : N.Valid) (inp : PfInput s) (type : Nat → LoadType) (u u' : Nat → CV s)
    (hsol : Solves N (currentEquations N inp type u) u') (b : Nat) (hb : b < N.T.nBus) (hsrc : b ∉ N.sourceBus)
    (hu : ∀ p, u b p ≠ 0) :
    let out := pfResult N inp type (fun _ _ => []) u'
    intoBranches N.T (out.branch.map fun x => (x.iF, x.iT)) b - fromShunts N.T (out.shunt.map (·.cur)) b -
      atBus N.loadBus (fun k => (out.load k).cur) b =
      atBus N.loadBus (fun k => loadCurrent inp type (u b) k - loadCurrent inp type (u' b) k) b := by
  simp only
  obtain ⟨e1, e2⟩ := currentEquations_eq N inp type u b hb
  obtain ⟨r1, r2⟩ := row_eq hN (current_step N) (fun _ => 0) u' b hb
  have hrow := hsol b hb
  rw [e1, e2] at hrow
  unfold currentMatrix at hrow
  rw [r1, r2] at hrow
  obtain ⟨p1, p2, p3, p4, p5, p6⟩ := pfResult_bus N inp type _ (no_alloc N) u' b hb
  set r := pfResult N inp type (fun _ _ => []) u' with hr
  have hempty : onBus N.sourceBus b = [] := by
    rw [List.eq_nil_iff_forall_not_mem]
    intro k hk
    exact hsrc (List.mem_of_getElem? (mem_onBus.mp hk))
  rw [hempty] at hrow
  simp only [List.map_nil, List.sum_nil, map_zero, AddMonoidHom.zero_apply, add_zero, zero_add] at hrow
  rw [p3, p4, branch_currents, shunt_currents N hN.topo,
    ← busCurrent_is_flow_of hN.topo hN.structure_ (coherent_of_valid hN) (dot s) u' b hb, hrow, atBus_eq, atBus_eq]
  have h1 : (onBus N.loadBus b).map (fun k => (r.load k).cur) = (onBus N.loadBus b).map (loadCurrent inp type (u' b)) := by
    apply List.map_congr_left
    intro k hk
    rw [p6 (fun _ _ => rfl) k (mem_onBus.mp hk)]
    rfl
  rw [h1]
  have h2 : (onBus N.loadBus b).map (loadRhs inp type (u b)) = (onBus N.loadBus b).map (loadCurrent inp type (u b)) :=
    List.map_congr_left (fun k _ => loadRhs_eq inp type (u b) k hu)
  rw [h2]
  generalize onBus N.loadBus b = l
  induction l with
  | nil => simp
  | cons a l ih =>
    simp only [List.map_cons, List.sum_cons]
    rw [← ih]
    abel

/-- How much the current of a load changes with the voltage: at most proportionally to the change. -/
theorem load_change (type : LoadType) (S u u' : ℂ) (m δ : ℝ) (hm : 0 < m) (h : m ≤ ‖u‖) (h' : m ≤ ‖u'‖) (hd : ‖u' - u‖ ≤ δ) :
    ‖(loadResult type S u).2 - (loadResult type S u').2‖ ≤ match type with
      | .constPq => ‖S‖ * δ / (m * m)
      | .constY => ‖S‖ * δ
      | .constI => 2 * ‖S‖ * δ / m := by
  have hu : u ≠ 0 := fun e => by rw [e, norm_zero] at h; linarith
  have hu' : u' ≠ 0 := fun e => by rw [e, norm_zero] at h'; linarith
  have hn : 0 < ‖u‖ := by linarith
  have hn' : 0 < ‖u'‖ := by linarith
  have hδ : 0 ≤ δ := (norm_nonneg _).trans hd
  cases type with
  | constPq =>
    simp only [loadResult]
    rw [← star_sub, norm_star]
    have : S / u - S / u' = S * (u' - u) / (u * u') := by field_simp
    rw [this, norm_div, norm_mul, norm_mul]
    apply div_le_div₀ (mul_nonneg (norm_nonneg _) hδ) (mul_le_mul_of_nonneg_left hd (norm_nonneg _)) (by positivity)
    exact mul_le_mul h h' hm.le hn.le
  | constY =>
    rw [load_current_y S u hu, load_current_y S u' hu', ← mul_sub, norm_mul, norm_star, norm_sub_rev]
    exact mul_le_mul_of_nonneg_left hd (norm_nonneg _)
  | constI =>
    simp only [loadResult]
    rw [← star_sub, norm_star]
    have hc : (‖u‖ : ℂ) ≠ 0 := by exact_mod_cast hn.ne'
    have e : S * (‖u‖ : ℂ) / u - S * (‖u'‖ : ℂ) / u' =
        S * (((‖u‖ : ℂ) - (‖u'‖ : ℂ)) * u' + (‖u'‖ : ℂ) * (u' - u)) / (u * u') := by
      field_simp
      ring
    rw [e, norm_div, norm_mul, norm_mul]
    have hnum : ‖((‖u‖ : ℂ) - (‖u'‖ : ℂ)) * u' + (‖u'‖ : ℂ) * (u' - u)‖ ≤ 2 * δ * ‖u'‖ := by
      refine (norm_add_le _ _).trans ?_
      rw [norm_mul, norm_mul]
      have t1 : ‖(‖u‖ : ℂ) - (‖u'‖ : ℂ)‖ ≤ δ := by
        rw [← Complex.ofReal_sub, Complex.norm_real, Real.norm_eq_abs]
        refine (abs_norm_sub_norm_le u u').trans ?_
        rw [norm_sub_rev]; exact hd
      have t2 : ‖(‖u'‖ : ℂ)‖ = ‖u'‖ := by rw [Complex.norm_real, norm_norm]
      rw [t2]
      have q1 := mul_le_mul_of_nonneg_right t1 hn'.le
      have q2 := mul_le_mul_of_nonneg_left hd hn'.le
      linarith
    have q : ‖S‖ * ‖((‖u‖ : ℂ) - (‖u'‖ : ℂ)) * u' + (‖u'‖ : ℂ) * (u' - u)‖ / (‖u‖ * ‖u'‖) ≤
        ‖S‖ * (2 * δ * ‖u'‖) / (‖u‖ * ‖u'‖) :=
      div_le_div_of_nonneg_right (mul_le_mul_of_nonneg_left hnum (norm_nonneg _)) (by positivity)
    refine q.trans ?_
    have e2 : ‖S‖ * (2 * δ * ‖u'‖) / (‖u‖ * ‖u'‖) = 2 * ‖S‖ * δ / ‖u‖ := by
      field_simp
    rw [e2]
    exact div_le_div_of_nonneg_left (by positivity) hm h

/-- The bound of `load_change` as a function of the type. -/
noncomputable def changeBound (type : LoadType) (S : ℂ) (m δ : ℝ) : ℝ :=
  match type with
  | .constPq => ‖S‖ * δ / (m * m)
  | .constY => ‖S‖ * δ
  | .constI => 2 * ‖S‖ * δ / m

/-- The iterative current method: when the last iteration changed the voltages by at most `δ` and the voltages are at least `m`,
Kirchhoff's law at a bus without sources is met up to an error that is proportional to `δ` and to the loads. -/
theorem iterative_kirchhoff_bound {N : PfNet s} (hN : N.Valid) (inp : PfInput s) (type : Nat → LoadType) (u u' : Nat → CV s)
    (hsol : Solves N (currentEquations N inp type u) u') (b : Nat) (hb : b < N.T.nBus) (hsrc : b ∉ N.sourceBus)
    (m δ : ℝ) (hm : 0 < m) (hu : ∀ p, m ≤ ‖u b p‖) (hu' : ∀ p, m ≤ ‖u' b p‖) (hd : ∀ p, ‖u' b p - u b p‖ ≤ δ) (p : Fin s.phases) :
    let out := pfResult N inp type (fun _ _ => []) u'
    ‖(intoBranches N.T (out.branch.map fun x => (x.iF, x.iT)) b - fromShunts N.T (out.shunt.map (·.cur)) b -
      atBus N.loadBus (fun k => (out.load k).cur) b) p‖ ≤
      (N.loadBus.zipIdx.map fun x => if x.1 = b then changeBound (type x.2) (inp.sInj x.2 p) m δ else 0).sum := by
  simp only
  have h0 : ∀ p, u b p ≠ 0 := fun p e => by have := hu p; rw [e, norm_zero] at this; linarith
  rw [iterative_residual hN inp type u u' hsol b hb hsrc h0]
  unfold atBus
  rw [list_sum_apply, List.map_map]
  generalize N.loadBus.zipIdx = l
  induction l with
  | nil => simp
  | cons x l ih =>
    simp only [List.map_cons, List.sum_cons, Function.comp]
    refine (norm_add_le _ _).trans (add_le_add ?_ ih)
    split_ifs with hx
    · exact load_change (type x.2) (inp.sInj x.2 p) (u b p) (u' b p) m δ hm (hu p) (hu' p) (hd p)
    · simp

/-! ## A case that meets the hypotheses -/

/-- Two buses, a branch, two sources on the first bus and a load on the second. -/
def exTopo2 : Topo := ⟨2, [(some 0, some 1)], [], []⟩

theorem exTopo2_valid : exTopo2.Valid where
  nonempty := by decide
  branchRange := by simp [exTopo2]
  shuntRange := by simp [exTopo2]
  fillRange := by simp [exTopo2]
  fillOff := by simp [exTopo2]
  fillNew := by simp [exTopo2]
  fillOnce := by simp [exTopo2]
  covered := by
    right
    intro r hr
    have : r = 0 ∨ r = 1 := by simp [exTopo2] at hr; omega
    rcases this with rfl | rfl <;> simp [exTopo2]

noncomputable def exParam2 : Param (CM .sym) where
  ff _ := fun _ _ => 1
  ft _ := fun _ _ => -1
  tf _ := fun _ _ => -1
  tt _ := fun _ _ => 1
  shunt _ := 0

noncomputable def exNet (S : YBus.Structure) : PfNet .sym where
  T := exTopo2
  S := S
  y := updateAdmittance S ⟨[], exParam2, fun _ => [], fun _ => []⟩ exParam2
  sourceBus := [0, 0]
  loadBus := [1]
  y1 _ := 1
  y0 _ := 1

noncomputable def exInput2 : PfInput .sym where
  source k := if k = 0 then 2 else 3
  sInj _ := fun _ => -1

/-- The exact solution of the linear equations. -/
noncomputable def exVoltage : Nat → CV .sym := fun b _ => if b = 0 then 2 else 1

/-- The example meets the hypotheses of `linear_kirchhoff`. -/
theorem exNet_case : ∃ S, build exTopo2 = some S ∧ (exNet S).Valid ∧ Solves (exNet S) (linearEquations (exNet S) exInput2) exVoltage ∧
    (∀ b, (exNet S).SourcesOk b) ∧ (∀ b p, exVoltage b p ≠ 0) := by
  obtain ⟨S, hS, _⟩ := structure_correct exTopo2_valid
  have hv : (exNet S).Valid := ⟨exTopo2_valid, hS, ⟨_, _, [], rfl⟩, by simp [exNet, exTopo2], by simp [exNet, exTopo2]⟩
  refine ⟨S, hS, hv, ?_, ?_, ?_⟩
  · intro r hr
    obtain ⟨r1, r2⟩ := row_eq hv (linear_step (exNet S) exInput2) (fun _ => 0) exVoltage r hr
    unfold linearEquations
    rw [r1, r2, show busCurrent (exNet S).S (exNet S).y (dot .sym) exVoltage r = _ from
      busCurrent_eq exTopo2_valid hS (coherent_of_valid hv) (dot .sym) exVoltage r hr]
    have hp : (exNet S).y.param = exParam2 := (coherent_updateAdmittance S _ exParam2).2
    have hr' : r = 0 ∨ r = 1 := by
      have : r < 2 := hr
      omega
    have one : ∀ (f g : Fin 1 → ℂ), f 0 = g 0 → f = g := fun f g h => by
      funext p; rw [Fin.fin_one_eq_zero p]; exact h
    apply one
    have o1 : onBus [0, 0] 0 = [0, 1] := by decide
    have o2 : onBus [0, 0] 1 = [] := by decide
    have o3 : onBus [1] 0 = [] := by decide
    have o4 : onBus [1] 1 = [0] := by decide
    have hd : ∀ (m : CM .sym) (v : CV .sym), dot .sym m v (0 : Fin 1) = m (0 : Fin 1) (0 : Fin 1) * v (0 : Fin 1) := by
      intro m v
      show ∑ q : Fin 1, m (0 : Fin 1) q * v q = _
      simp
    rw [hp]
    show (∑ c ∈ Finset.range 2, dot .sym (nodal exTopo2 exParam2 r c) (exVoltage c) +
      dot .sym (((onBus [1] r).map fun k => Matrix.diagonal (-(star (exInput2.sInj k)))).sum +
        ((onBus [0, 0] r).map fun k => yRef .sym 1 1).sum) (exVoltage r)) (0 : Fin 1) =
      (0 + ((onBus [0, 0] r).map fun k => dot .sym (yRef .sym 1 1) (spread .sym (exInput2.source k))).sum) (0 : Fin 1)
    simp only [Finset.sum_range_succ, Finset.sum_range_zero, zero_add]
    rcases hr' with rfl | rfl
    · rw [o1, o3]
      simp only [List.map_nil, List.sum_nil, List.map_cons, List.sum_cons, zero_add, add_zero, Pi.add_apply, hd,
        Matrix.add_apply]
      simp [nodal, exTopo2, branchTerm, exParam2, yRef, spread, exInput2]
      change dot .sym _ _ (0 : Fin 1) + dot .sym _ _ (0 : Fin 1) + dot .sym _ _ (0 : Fin 1) =
        dot .sym _ _ (0 : Fin 1) + dot .sym _ _ (0 : Fin 1)
      erw [hd, hd, hd, hd, hd]
      change ((1 : ℂ) + 0) * 2 + (0 + -1) * 1 + (1 + 1) * 2 = 1 * 2 + 1 * 3
      norm_num
    · rw [o2, o4]
      simp only [List.map_nil, List.sum_nil, List.map_cons, List.sum_cons, zero_add, add_zero, Pi.add_apply, hd,
        Matrix.add_apply]
      simp [nodal, exTopo2, branchTerm, exParam2, exInput2]
      change dot .sym _ _ (0 : Fin 1) + dot .sym _ _ (0 : Fin 1) + dot .sym _ _ (0 : Fin 1) = (0 : ℂ)
      erw [hd, hd, hd]
      have hdiag : (Matrix.diagonal (-star fun _ : Fin 1 => (-1 : ℂ))) 0 0 = 1 := by simp
      change ((0 : ℂ) + -1) * 2 + (0 + 1) * 1 + (Matrix.diagonal (-star fun _ : Fin 1 => (-1 : ℂ))) 0 0 * 1 = 0
      rw [hdiag]
      norm_num
  · intro b hb
    refine ⟨?_, fun h => by cases h⟩
    have : b = 0 := by
      by_contra hne
      have : List.count b [0, 0] = 0 := List.count_eq_zero.mpr (by simp [hne])
      have hb' : 2 ≤ List.count b [0, 0] := hb
      omega
    subst this
    simp [exNet]
  · intro b p
    unfold exVoltage
    split_ifs <;> norm_num

end PGM.PowerFlow
