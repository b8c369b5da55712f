import Verif.Newton.Spec
import Verif.StateEst.Matrix

/-!
# What the loops of the Newton-Raphson power flow leave in the Jacobian and in the right-hand side

Lemmas for C54. The four real blocks of an entry are seen as a map of complex vectors: a change `ν` of magnitude and `θ` of angle is `ν + iθ`,
active and reactive power are `p + iq`.
-/

namespace PGM.NewtonPf

open PGM.YBus PGM.Lu PGM.PowerFlow PGM.Component

variable {s : Symm}

/-! ## Blocks as maps of complex vectors -/

/-- The complex power of a right-hand side. -/
noncomputable def Power.cplx (x : Power s) : CV s := fun p => (x.p p : ℂ) + (x.q p : ℂ) * Complex.I

/-- The complex form of a step. -/
noncomputable def Polar.cplx (d : Polar s) : CV s := fun p => (d.v p : ℂ) + (d.theta p : ℂ) * Complex.I

theorem Power.cplx_re (x : Power s) (p : Fin s.phases) : (x.cplx p).re = x.p p := by simp [Power.cplx]
theorem Power.cplx_im (x : Power s) (p : Fin s.phases) : (x.cplx p).im = x.q p := by simp [Power.cplx]

/-- A block applied to a step. -/
noncomputable def act (b : Jac s) (η : CV s) : CV s := fun p =>
  ∑ q, (((b.h p q * (η q).im + b.n p q * (η q).re : ℝ) : ℂ) + ((b.m p q * (η q).im + b.l p q * (η q).re : ℝ) : ℂ) * Complex.I)

theorem act_zero (η : CV s) : act Jac.zero η = 0 := by
  funext p
  simp [act, Jac.zero]

theorem act_hnml (y : CM s) (ui uj η : CV s) : act (hnml y ui uj) η = fun p => ∑ q, powerFlow y ui uj p q * star (η q) := by
  funext p
  unfold act
  refine Finset.sum_congr rfl fun q _ => ?_
  simp only [hnml]
  apply Complex.ext
  · simp; ring
  · simp

theorem powerFlow_sum (y : CM s) (ui uj : CV s) (p : Fin s.phases) : ∑ q, powerFlow y ui uj p q = ui p * star (dot s y uj p) := by
  have : dot s y uj p = ∑ q, y p q * uj q := rfl
  rw [this, star_sum, Finset.mul_sum]
  refine Finset.sum_congr rfl fun q _ => ?_
  simp only [powerFlow, star_mul']
  ring

theorem hnml_zero (ui uj : CV s) : hnml (0 : CM s) ui uj = Jac.zero := by
  unfold hnml Jac.zero powerFlow
  congr 1 <;> funext p q <;> simp

theorem addDiag_apply (a : RM s) (v : RV s ℝ) (p q : Fin s.phases) : addDiag a v p q = a p q + if p = q then v p else 0 := by
  unfold addDiag
  rw [Matrix.add_apply, Matrix.diagonal_apply]

theorem sum_diag (f : Fin s.phases → ℂ) (p : Fin s.phases) (z : ℂ) : ∑ q, f q + z = ∑ q, (f q + if p = q then z else 0) := by
  rw [Finset.sum_add_distrib, Finset.sum_ite_eq]
  simp

theorem modify_self {A : Type} {l : List A} {d k : Nat} (h : d = k) (f : A → A) : (l.modify d f)[k]? = l[k]?.map f := by
  subst h
  rw [List.getElem?_modify]
  cases l[d]? <;> simp

theorem modify_ne {A : Type} {l : List A} {d k : Nat} (h : d ≠ k) (f : A → A) : (l.modify d f)[k]? = l[k]? := by
  rw [List.getElem?_modify]
  cases l[k]? <;> simp [h]

/-- The correction of the diagonal. -/
theorem act_correct (b : Jac s) (x : Power s) (η : CV s) :
    act ⟨addDiag b.h x.q, addDiag b.n (-x.p), addDiag b.m (-x.p), addDiag b.l (-x.q)⟩ η = act b η - x.cplx * η := by
  funext p
  rw [Pi.sub_apply]
  unfold act
  refine Eq.trans ?_ ((sum_diag _ p (-(x.cplx * η) p)).symm.trans (sub_eq_add_neg _ _).symm)
  refine Finset.sum_congr rfl fun q _ => ?_
  simp only [addDiag_apply]
  by_cases hpq : p = q
  · subst hpq
    simp only [if_true]
    apply Complex.ext
    · simp [Power.cplx_re, Power.cplx_im]; ring
    · simp [Power.cplx_re, Power.cplx_im]; ring
  · simp [hpq]

/-- A term on the diagonal of `n` and `l`. -/
theorem act_slope (b : Jac s) (x : Power s) (η : CV s) :
    act { b with n := addDiag b.n x.p, l := addDiag b.l x.q } η = act b η + fun p => x.cplx p * ((η p).re : ℂ) := by
  funext p
  rw [Pi.add_apply]
  unfold act
  refine Eq.trans ?_ (sum_diag _ p (x.cplx p * ((η p).re : ℂ))).symm
  refine Finset.sum_congr rfl fun q _ => ?_
  simp only [addDiag_apply]
  by_cases hpq : p = q
  · subst hpq
    simp only [if_true]
    apply Complex.ext
    · simp [Power.cplx_re, Power.cplx_im]; ring
    · simp [Power.cplx_re, Power.cplx_im]; ring
  · simp [hpq]

theorem act_add (b b' : Jac s) (η : CV s) : act ⟨b.h + b'.h, b.n + b'.n, b.m + b'.m, b.l + b'.l⟩ η = act b η + act b' η := by
  funext p
  rw [Pi.add_apply]
  unfold act
  rw [← Finset.sum_add_distrib]
  refine Finset.sum_congr rfl fun q _ => ?_
  simp only [Matrix.add_apply]
  push_cast
  ring

theorem sumRow_cplx (y : CM s) (ui uj : CV s) :
    Power.cplx ⟨sumRow (hnml y ui uj).n, sumRow (hnml y ui uj).h⟩ = ui * star (dot s y uj) := by
  funext p
  rw [Pi.mul_apply, Pi.star_apply, ← powerFlow_sum]
  simp only [Power.cplx, sumRow, hnml]
  apply Complex.ext <;> simp

/-! ## Loops over rows -/

/-- Two states agree on a row. -/
def SameRow (N : PfNet s) (r : Nat) (x y : Sys s) : Prop :=
  y.pq r = x.pq r ∧ ∀ c k, EntryAt N.S.rowIndptrLu N.S.colIndicesLu r c k → y.jac[k]? = x.jac[k]?

theorem SameRow.refl (N : PfNet s) (r : Nat) (x : Sys s) : SameRow N r x x := ⟨rfl, fun _ _ _ => rfl⟩

theorem SameRow.trans {N : PfNet s} {r : Nat} {x y z : Sys s} (h : SameRow N r x y) (h' : SameRow N r y z) : SameRow N r x z :=
  ⟨h'.1.trans h.1, fun c k hk => (h'.2 c k hk).trans (h.2 c k hk)⟩

/-- A step that touches one row only. -/
def RowStep (N : PfNet s) (g : Sys s → Nat → Sys s) : Prop :=
  ∀ x r, r < N.T.nBus → (g x r).jac.length = x.jac.length ∧ ∀ r', r' < N.T.nBus → r' ≠ r → SameRow N r' x (g x r)

theorem rows_loop {N : PfNet s} {g : Sys s → Nat → Sys s} (hg : RowStep N g) (skip : Nat → Bool) (l : List Nat) (hn : l.Nodup)
    (hl : ∀ r ∈ l, r < N.T.nBus) (x : Sys s) :
    let z := l.foldl (fun x r => if skip r then x else g x r) x
    z.jac.length = x.jac.length ∧ ∀ r, r < N.T.nBus →
      (r ∈ l → skip r = false → ∃ x', x'.jac.length = x.jac.length ∧ SameRow N r x x' ∧ SameRow N r (g x' r) z) ∧
      (r ∉ l ∨ skip r = true → SameRow N r x z) := by
  induction l generalizing x with
  | nil => simp [SameRow.refl]
  | cons a l ih =>
    rw [List.nodup_cons] at hn
    simp only [List.foldl_cons]
    have ha : a < N.T.nBus := hl a (by simp)
    obtain ⟨i1, i2⟩ := ih hn.2 (fun r hr => hl r (by simp [hr])) (if skip a then x else g x a)
    have hlen : (if skip a then x else g x a).jac.length = x.jac.length := by
      split_ifs
      · rfl
      · exact (hg x a ha).1
    have hsame : ∀ r, r < N.T.nBus → (r ≠ a ∨ skip r = true) → SameRow N r x (if skip a then x else g x a) := by
      intro r hr h
      by_cases hs : skip a
      · rw [if_pos hs]; exact SameRow.refl _ _ _
      · rw [if_neg hs]
        refine (hg x a ha).2 r hr ?_
        rcases h with h | h
        · exact h
        · rintro rfl; exact hs h
    refine ⟨i1.trans hlen, fun r hr => ⟨fun hm hs => ?_, fun h => ?_⟩⟩
    · rcases List.mem_cons.mp hm with rfl | hm'
      · refine ⟨x, rfl, SameRow.refl _ _ _, ?_⟩
        have := (i2 r hr).2 (Or.inl hn.1)
        rw [hs] at this ⊢
        simpa using this
      · obtain ⟨x', l1, s1, s2⟩ := (i2 r hr).1 hm' hs
        exact ⟨x', l1.trans hlen, (hsame r hr (Or.inl fun e => hn.1 (e ▸ hm'))).trans s1, s2⟩
    · refine (hsame r hr ?_).trans ((i2 r hr).2 ?_)
      · rcases h with h | h
        · exact Or.inl fun e => h (by simp [e])
        · exact Or.inr h
      · rcases h with h | h
        · exact Or.inl fun e => h (by simp [e])
        · exact Or.inr h

/-! ## The structure -/

theorem correct_structure {N : PfNet s} (hN : N.Valid) :
    IsCsr N.T.nBus N.S.rowIndptrLu N.S.colIndicesLu (InLu N.T) ∧
    (∀ r, r < N.T.nBus → EntryAt N.S.rowIndptrLu N.S.colIndicesLu r r (N.S.diagLu[r]?.getD 0)) ∧
    (∀ r c k, EntryAt N.S.rowIndptrLu N.S.colIndicesLu r c k →
      (match N.S.mapLuYBus[k]?.getD none with
        | none => (0 : CM s)
        | some d => N.y.admittance[d]?.getD 0) = nodal N.T N.y.param r c ∧ N.S.colIndicesLu[k]?.getD 0 = c ∧ k < N.S.colIndicesLu.length) := by
  obtain ⟨S', hS', I⟩ := structure_correct hN.topo
  rw [hN.structure_] at hS'
  injection hS' with hS'
  rw [← hS'] at I
  refine ⟨I.lu, fun r hr => ?_, fun r c k hk => ⟨?_, ?_, ?_⟩⟩
  · obtain ⟨k, h1, h2⟩ := I.diag.2 r hr
    rw [h1]; exact h2
  · obtain ⟨m1, m2⟩ := I.map.2 r c k hk
    by_cases hy : InY N.T r c
    · obtain ⟨k', e1, e2⟩ := m1 hy
      rw [e1]
      simp only [Option.getD_some]
      rw [(coherent_of_valid hN).value k' (entry_elements hN.topo hN.structure_ e2).1, entry_is_nodal hN.topo hN.structure_ _ e2, Option.getD_some]
    · rw [m2 hy, nodal_zero _ hy]
      rfl
  · obtain ⟨_, _, _, _, _, _, h⟩ := hk
    rw [h]; rfl
  · obtain ⟨_, _, _, _, _, _, h⟩ := hk
    exact (List.getElem?_eq_some_iff.mp h).1

/-- The entry on the diagonal is the one of the structure. -/
theorem diag_entry {N : PfNet s} (hN : N.Valid) {r c k : Nat} (hr : r < N.T.nBus)
    (hk : EntryAt N.S.rowIndptrLu N.S.colIndicesLu r c k) : N.S.diagLu[r]?.getD 0 = k ↔ r = c := by
  obtain ⟨I, D, _⟩ := correct_structure hN
  constructor
  · intro e
    have := D r hr
    rw [e] at this
    exact (csr_row_unique I hr hr this hk).2
  · rintro rfl
    exact entry_unique I (D r hr) hk

theorem other_entry {N : PfNet s} (hN : N.Valid) {r r' c k : Nat} (hr : r < N.T.nBus) (hr' : r' < N.T.nBus) (hne : r' ≠ r)
    (hk : EntryAt N.S.rowIndptrLu N.S.colIndicesLu r' c k) : N.S.diagLu[r]?.getD 0 ≠ k := by
  obtain ⟨I, D, _⟩ := correct_structure hN
  intro e
  have := D r hr
  rw [e] at this
  exact hne (csr_row_unique I hr' hr hk this).1

/-! ## The network -/

/-- The block of one entry. -/
noncomputable def entryBlk (N : PfNet s) (u : Nat → CV s) (row k : Nat) : Jac s :=
  hnml (match N.S.mapLuYBus[k]?.getD none with
        | none => (0 : CM s)
        | some d => N.y.admittance[d]?.getD 0) (u row) (u (N.S.colIndicesLu[k]?.getD 0))

theorem netEntry_eq (N : PfNet s) (u : Nat → CV s) (row : Nat) (x : Sys s) (k : Nat) :
    netEntry N u row x k = ⟨x.jac.set k (entryBlk N u row k),
      Function.update x.pq row ⟨(x.pq row).p - sumRow (entryBlk N u row k).n, (x.pq row).q - sumRow (entryBlk N u row k).h⟩⟩ := by
  unfold netEntry entryBlk
  cases N.S.mapLuYBus[k]?.getD none with
  | none =>
    simp only [hnml_zero]
    have : sumRow (Jac.zero : Jac s).n = 0 := by funext p; simp [sumRow, Jac.zero]
    have h' : sumRow (Jac.zero : Jac s).h = 0 := by funext p; simp [sumRow, Jac.zero]
    rw [this, h', sub_zero, sub_zero]
    simp
  | some d => rfl

theorem netEntries (N : PfNet s) (u : Nat → CV s) (row : Nat) (l : List Nat) (x : Sys s) :
    (l.foldl (netEntry N u row) x).jac = l.foldl (fun data k => data.set k (entryBlk N u row k)) x.jac ∧
    (∀ b, b ≠ row → (l.foldl (netEntry N u row) x).pq b = x.pq b) ∧
    ((l.foldl (netEntry N u row) x).pq row).cplx = (x.pq row).cplx -
      (l.map fun k => Power.cplx ⟨sumRow (entryBlk N u row k).n, sumRow (entryBlk N u row k).h⟩).sum := by
  induction l generalizing x with
  | nil => simp
  | cons a l ih =>
    simp only [List.foldl_cons]
    obtain ⟨i1, i2, i3⟩ := ih (netEntry N u row x a)
    rw [netEntry_eq] at i1 i2 i3 ⊢
    refine ⟨i1, fun b hb => by rw [i2 b hb]; simp [hb], ?_⟩
    rw [i3]
    simp only [Function.update_self, List.map_cons, List.sum_cons]
    funext p
    simp only [Power.cplx, Pi.sub_apply, Pi.add_apply]
    push_cast
    ring

theorem copy_row {N : PfNet s} (hN : N.Valid) (u : Nat → CV s) (r : Nat) (hr : r < N.T.nBus) :
    luRow N (copyYBus N) u r = ∑ c ∈ Finset.range N.T.nBus, dot s (nodal N.T N.y.param r c) (u c) := by
  have hg : BusStep N (fun _ => 0) (fun _ => 0) (fun x _ => x) := by
    intro x b
    refine ⟨by simp, rfl, fun _ _ => rfl, fun h => ?_⟩
    rw [List.getElem?_eq_getElem h]
    simp
  have h := (row_eq hN hg (fun _ => 0) u r hr).1
  rw [List.foldl_const] at h
  have hid : ∀ n, (fun x : Lin s => x)^[n] = id := fun n => Function.iterate_id n
  rw [hid] at h
  simp only [id] at h
  rw [h, busCurrent_eq hN.topo hN.structure_ (coherent_of_valid hN) (dot s) u r hr]
  simp

theorem entries_sum {N : PfNet s} (hN : N.Valid) (u : Nat → CV s) (r : Nat) (hr : r < N.T.nBus) :
    ((List.range' (N.S.rowIndptrLu[r]?.getD 0) (N.S.rowIndptrLu[r + 1]?.getD 0 - N.S.rowIndptrLu[r]?.getD 0)).map fun k =>
      Power.cplx ⟨sumRow (entryBlk N u r k).n, sumRow (entryBlk N u r k).h⟩).sum = taken N u r := by
  unfold taken
  rw [← copy_row hN u r hr]
  unfold luRow
  obtain ⟨I, _, E⟩ := correct_structure hN
  have hmem : ∀ k ∈ List.range' (N.S.rowIndptrLu[r]?.getD 0) (N.S.rowIndptrLu[r + 1]?.getD 0 - N.S.rowIndptrLu[r]?.getD 0),
      (copyYBus N)[k]?.getD 0 = match N.S.mapLuYBus[k]?.getD none with
        | none => (0 : CM s)
        | some d => N.y.admittance[d]?.getD 0 := by
    intro k hk
    unfold copyYBus
    rw [List.getElem?_map]
    cases hm : N.S.mapLuYBus[k]? with
    | none => rfl
    | some o => cases o <;> rfl
  generalize List.range' (N.S.rowIndptrLu[r]?.getD 0) (N.S.rowIndptrLu[r + 1]?.getD 0 - N.S.rowIndptrLu[r]?.getD 0) = l at hmem
  have main : ∀ (l : List Nat) (acc : CV s), (∀ k ∈ l, (copyYBus N)[k]?.getD 0 = match N.S.mapLuYBus[k]?.getD none with
        | none => (0 : CM s)
        | some d => N.y.admittance[d]?.getD 0) →
      u r * star acc + (l.map fun k => Power.cplx ⟨sumRow (entryBlk N u r k).n, sumRow (entryBlk N u r k).h⟩).sum =
        u r * star (l.foldl (fun acc k => acc + dot s ((copyYBus N)[k]?.getD 0) (u (N.S.colIndicesLu[k]?.getD 0))) acc) := by
    intro l
    induction l with
    | nil => intro acc _; simp
    | cons a l ih =>
      intro acc h
      rw [List.map_cons, List.sum_cons, List.foldl_cons, ← ih _ (fun k hk => h k (by simp [hk]))]
      rw [entryBlk, sumRow_cplx, h a (by simp), star_add, mul_add, add_assoc]
  have := main l 0 hmem
  simpa using this

/-- What the network puts in a row. -/
theorem netRow_spec {N : PfNet s} (hN : N.Valid) (u : Nat → CV s) (x : Sys s) (hx : x.jac.length = N.S.colIndicesLu.length) (r : Nat)
    (hr : r < N.T.nBus) :
    ((netRow N u x r).pq r).cplx = -taken N u r ∧
    ∀ c k, EntryAt N.S.rowIndptrLu N.S.colIndicesLu r c k → ∃ b, (netRow N u x r).jac[k]? = some b ∧
      ∀ η, act b η = (fun p => ∑ q, powerFlow (nodal N.T N.y.param r c) (u r) (u c) p q * star (η q)) +
        if r = c then taken N u r * η else 0 := by
  obtain ⟨I, D, E⟩ := correct_structure hN
  unfold netRow
  simp only
  obtain ⟨e1, e2, e3⟩ := netEntries N u r
    (List.range' (N.S.rowIndptrLu[r]?.getD 0) (N.S.rowIndptrLu[r + 1]?.getD 0 - N.S.rowIndptrLu[r]?.getD 0))
    { x with pq := Function.update x.pq r ⟨0, 0⟩ }
  rw [entries_sum hN u r hr] at e3
  set z := (List.range' (N.S.rowIndptrLu[r]?.getD 0) (N.S.rowIndptrLu[r + 1]?.getD 0 - N.S.rowIndptrLu[r]?.getD 0)).foldl
    (netEntry N u r) { x with pq := Function.update x.pq r ⟨0, 0⟩ } with hz
  have hpq : (z.pq r).cplx = -taken N u r := by
    rw [e3]
    funext p
    simp [Power.cplx]
  refine ⟨hpq, fun c k hk => ?_⟩
  have hzk : z.jac[k]? = some (entryBlk N u r k) := by
    rw [e1, (StateEst.fold_set_range (entryBlk N u r) _ x.jac).2 k (by rw [hx]; exact (E r c k hk).2.2),
      if_pos ((StateEst.mem_row I hr).mpr ⟨(E r c k hk).2.2, c, hk⟩)]
  have hblk : entryBlk N u r k = hnml (nodal N.T N.y.param r c) (u r) (u c) := by
    unfold entryBlk
    rw [(E r c k hk).1, (E r c k hk).2.1]
  unfold correctDiag
  simp only
  by_cases hrc : r = c
  · rw [modify_self ((diag_entry hN hr hk).mpr hrc), hzk, hblk]
    refine ⟨_, rfl, fun η => ?_⟩
    rw [act_correct, hpq, act_hnml, if_pos hrc]
    rw [neg_mul, sub_neg_eq_add]
  · rw [modify_ne (fun e => hrc ((diag_entry hN hr hk).mp e)), hzk, hblk]
    refine ⟨_, rfl, fun η => ?_⟩
    rw [act_hnml, if_neg hrc, add_zero]

theorem netRow_local {N : PfNet s} (hN : N.Valid) (u : Nat → CV s) : RowStep N (netRow N u) := by
  intro x r hr
  obtain ⟨I, D, E⟩ := correct_structure hN
  unfold netRow
  simp only
  obtain ⟨e1, e2, e3⟩ := netEntries N u r
    (List.range' (N.S.rowIndptrLu[r]?.getD 0) (N.S.rowIndptrLu[r + 1]?.getD 0 - N.S.rowIndptrLu[r]?.getD 0))
    { x with pq := Function.update x.pq r ⟨0, 0⟩ }
  have hf := StateEst.fold_set_range (entryBlk N u r)
    (List.range' (N.S.rowIndptrLu[r]?.getD 0) (N.S.rowIndptrLu[r + 1]?.getD 0 - N.S.rowIndptrLu[r]?.getD 0)) x.jac
  refine ⟨?_, fun r' hr' hne => ⟨?_, fun c k hk => ?_⟩⟩
  · simp only [correctDiag, List.length_modify]
    rw [e1]
    exact hf.1
  · simp only [correctDiag]
    rw [e2 r' hne]
    simp [hne]
  · simp only [correctDiag]
    rw [modify_ne (other_entry hN hr hr' hne hk), e1]
    by_cases hkl : k < x.jac.length
    · rw [hf.2 k hkl, if_neg]
      · intro hm
        obtain ⟨_, c', hc'⟩ := (StateEst.mem_row I hr).mp hm
        exact hne (csr_row_unique I hr' hr hk hc').1
    · have h1 := List.getElem?_eq_none (l := x.jac) (i := k) (by omega)
      rw [h1, List.getElem?_eq_none (by rw [hf.1]; omega)]

/-! ## Terms on the diagonal -/

/-- A step that adds a term `f` to the block on the diagonal of a bus and a term `g` to its right-hand side. -/
def DiagStep (N : PfNet s) (bus : Nat) (f : Nat → CV s → CV s) (g : Nat → CV s) (step : Sys s → Nat → Sys s) : Prop :=
  ∀ x k, (step x k).jac.length = x.jac.length ∧ (∀ j, j ≠ N.S.diagLu[bus]?.getD 0 → (step x k).jac[j]? = x.jac[j]?) ∧
    (∀ b, x.jac[N.S.diagLu[bus]?.getD 0]? = some b → ∃ b', (step x k).jac[N.S.diagLu[bus]?.getD 0]? = some b' ∧ ∀ η, act b' η = act b η + f k η) ∧
    (∀ j, j ≠ bus → (step x k).pq j = x.pq j) ∧ ((step x k).pq bus).cplx = (x.pq bus).cplx + g k

theorem diag_fold {N : PfNet s} {bus : Nat} {f : Nat → CV s → CV s} {g : Nat → CV s} {step : Sys s → Nat → Sys s}
    (h : DiagStep N bus f g step) (l : List Nat) (x : Sys s) :
    (l.foldl step x).jac.length = x.jac.length ∧ (∀ j, j ≠ N.S.diagLu[bus]?.getD 0 → (l.foldl step x).jac[j]? = x.jac[j]?) ∧
    (∀ b, x.jac[N.S.diagLu[bus]?.getD 0]? = some b →
      ∃ b', (l.foldl step x).jac[N.S.diagLu[bus]?.getD 0]? = some b' ∧ ∀ η, act b' η = act b η + (l.map fun k => f k η).sum) ∧
    (∀ j, j ≠ bus → (l.foldl step x).pq j = x.pq j) ∧ ((l.foldl step x).pq bus).cplx = (x.pq bus).cplx + (l.map g).sum := by
  induction l generalizing x with
  | nil => exact ⟨rfl, fun _ _ => rfl, fun b hb => ⟨b, hb, fun η => by simp⟩, fun _ _ => rfl, by simp⟩
  | cons a l ih =>
    simp only [List.foldl_cons]
    obtain ⟨i1, i2, i3, i4, i5⟩ := ih (step x a)
    obtain ⟨h1, h2, h3, h4, h5⟩ := h x a
    refine ⟨i1.trans h1, fun j hj => (i2 j hj).trans (h2 j hj), fun b hb => ?_, fun j hj => (i4 j hj).trans (h4 j hj), ?_⟩
    · obtain ⟨b1, e1, e2⟩ := h3 b hb
      obtain ⟨b2, e3, e4⟩ := i3 b1 e1
      exact ⟨b2, e3, fun η => by rw [e4, e2, List.map_cons, List.sum_cons, add_assoc]⟩
    · rw [i5, h5, List.map_cons, List.sum_cons, add_assoc]

theorem loadPower_cplx (inp : PfInput s) (type : Nat → LoadType) (fixed : Nat → Option (RV s ℝ)) (v : RV s ℝ) (k : Nat) :
    (loadPower inp (type k) (fixed k) k v).cplx = given inp type fixed v k := by
  funext p
  unfold loadPower given
  cases fixed k with
  | some q => rfl
  | none =>
    cases type k <;> simp only [Power.cplx, factor] <;> conv_rhs => rw [← Complex.re_add_im (inp.sInj k p)]
    all_goals push_cast
    all_goals ring

theorem load_step (N : PfNet s) (inp : PfInput s) (type : Nat → LoadType) (fixed : Nat → Option (RV s ℝ)) (v : RV s ℝ) (bus : Nat) :
    DiagStep N bus (fun k η p => (loadSlope inp (type k) (fixed k) k v).cplx p * ((η p).re : ℂ)) (given inp type fixed v)
      (addLoad N inp type fixed v bus) := by
  intro x k
  unfold addLoad
  simp only
  refine ⟨List.length_modify .., fun j hj => modify_ne (Ne.symm hj) _, fun b hb => ?_, fun j hj => by simp [hj], ?_⟩
  · rw [modify_self rfl, hb]
    exact ⟨_, rfl, fun η => act_slope b (loadSlope inp (type k) (fixed k) k v) η⟩
  · rw [← loadPower_cplx]
    funext p
    simp only [Function.update_self, Power.cplx, Pi.add_apply]
    push_cast
    ring

theorem hnml_pq (y y' : CM s) (u u' w : CV s) :
    Power.cplx ⟨sumRow ((hnml y u u').n + (hnml y' u w).n), sumRow ((hnml y u u').h + (hnml y' u w).h)⟩ =
      u * star (dot s y u' + dot s y' w) := by
  rw [star_add, mul_add, ← sumRow_cplx, ← sumRow_cplx]
  funext p
  simp only [Power.cplx, sumRow, Pi.add_apply, Matrix.add_apply, Finset.sum_add_distrib]
  push_cast
  ring

theorem source_step (N : PfNet s) (inp : PfInput s) (u : CV s) (bus : Nat) :
    DiagStep N bus (fun k η => (fun p => ∑ q, powerFlow (yRef s (N.y1 k) (N.y0 k)) u u p q * star (η q)) -
        u * star (physicalSource N inp u k) * η) (fun k => u * star (physicalSource N inp u k)) (addSource N inp u bus) := by
  intro x k
  have hS : u * star (physicalSource N inp u k) = -Power.cplx ⟨
      sumRow ((hnml (yRef s (N.y1 k) (N.y0 k)) u u).n + (hnml (-yRef s (N.y1 k) (N.y0 k)) u (spread s (inp.source k))).n),
      sumRow ((hnml (yRef s (N.y1 k) (N.y0 k)) u u).h + (hnml (-yRef s (N.y1 k) (N.y0 k)) u (spread s (inp.source k))).h)⟩ := by
    rw [hnml_pq]
    unfold physicalSource
    rw [map_neg, map_sub, AddMonoidHom.neg_apply, ← mul_neg, ← star_neg]
    congr 2
    abel
  simp only [hS]
  unfold addSource
  simp only
  set z : Power s := ⟨
      sumRow ((hnml (yRef s (N.y1 k) (N.y0 k)) u u).n + (hnml (-yRef s (N.y1 k) (N.y0 k)) u (spread s (inp.source k))).n),
      sumRow ((hnml (yRef s (N.y1 k) (N.y0 k)) u u).h + (hnml (-yRef s (N.y1 k) (N.y0 k)) u (spread s (inp.source k))).h)⟩ with hz
  refine ⟨List.length_modify .., fun j hj => modify_ne (Ne.symm hj) _, fun b hb => ?_, fun j hj => by simp [hj], ?_⟩
  · rw [modify_self rfl, hb]
    refine ⟨_, rfl, fun η => ?_⟩
    have h1 := act_add b ⟨addDiag (hnml (yRef s (N.y1 k) (N.y0 k)) u u).h (-z.q), addDiag (hnml (yRef s (N.y1 k) (N.y0 k)) u u).n z.p,
      addDiag (hnml (yRef s (N.y1 k) (N.y0 k)) u u).m z.p, addDiag (hnml (yRef s (N.y1 k) (N.y0 k)) u u).l z.q⟩ η
    have h2 := act_correct (hnml (yRef s (N.y1 k) (N.y0 k)) u u) ⟨-z.p, -z.q⟩ η
    simp only [neg_neg] at h2
    refine h1.trans ?_
    rw [h2, act_hnml]
    have h3 : Power.cplx ⟨-z.p, -z.q⟩ = -z.cplx := by
      funext p
      simp [Power.cplx]
      ring
    rw [h3]
  · funext p
    simp only [Function.update_self, Power.cplx, Pi.add_apply, Pi.neg_apply, Pi.sub_apply]
    push_cast
    ring

/-- What loads, generators and sources add to a row. -/
theorem buildBus_spec (N : PfNet s) (inp : PfInput s) (type : Nat → LoadType) (fixed : Nat → Option (RV s ℝ)) (pol : Nat → Polar s)
    (u : Nat → CV s) (x : Sys s) (r : Nat) :
    (buildBus N inp type fixed pol u x r).jac.length = x.jac.length ∧
    (∀ j, j ≠ N.S.diagLu[r]?.getD 0 → (buildBus N inp type fixed pol u x r).jac[j]? = x.jac[j]?) ∧
    (∀ b, x.jac[N.S.diagLu[r]?.getD 0]? = some b → ∃ b', (buildBus N inp type fixed pol u x r).jac[N.S.diagLu[r]?.getD 0]? = some b' ∧
      ∀ η, act b' η = act b η +
        (((onBus N.loadBus r).map fun k p => (loadSlope inp (type k) (fixed k) k (pol r).v).cplx p * ((η p).re : ℂ)).sum +
        ((onBus N.sourceBus r).map fun k => (fun p => ∑ q, powerFlow (yRef s (N.y1 k) (N.y0 k)) (u r) (u r) p q * star (η q)) -
          u r * star (physicalSource N inp (u r) k) * η).sum)) ∧
    (∀ j, j ≠ r → (buildBus N inp type fixed pol u x r).pq j = x.pq j) ∧
    ((buildBus N inp type fixed pol u x r).pq r).cplx = (x.pq r).cplx + (((onBus N.loadBus r).map (given inp type fixed (pol r).v)).sum +
      ((onBus N.sourceBus r).map fun k => u r * star (physicalSource N inp (u r) k)).sum) := by
  unfold buildBus
  obtain ⟨a1, a2, a3, a4, a5⟩ := diag_fold (load_step N inp type fixed (pol r).v r) (onBus N.loadBus r) x
  set y := (onBus N.loadBus r).foldl (addLoad N inp type fixed (pol r).v r) x
  obtain ⟨b1, b2, b3, b4, b5⟩ := diag_fold (source_step N inp (u r) r) (onBus N.sourceBus r) y
  refine ⟨b1.trans a1, fun j hj => (b2 j hj).trans (a2 j hj), fun b hb => ?_, fun j hj => (b4 j hj).trans (a4 j hj), ?_⟩
  · obtain ⟨c, e1, e2⟩ := a3 b hb
    obtain ⟨d, e3, e4⟩ := b3 c e1
    exact ⟨d, e3, fun η => by rw [e4, e2, add_assoc]⟩
  · rw [b5, a5, add_assoc]

theorem buildBus_local {N : PfNet s} (hN : N.Valid) (inp : PfInput s) (type : Nat → LoadType) (fixed : Nat → Option (RV s ℝ))
    (pol : Nat → Polar s) (u : Nat → CV s) : RowStep N (buildBus N inp type fixed pol u) := by
  intro x r hr
  obtain ⟨a1, a2, _, a4, _⟩ := buildBus_spec N inp type fixed pol u x r
  exact ⟨a1, fun r' hr' hne => ⟨a4 r' hne, fun c k hk => a2 k (Ne.symm (other_entry hN hr hr' hne hk))⟩⟩

/-! ## The whole Jacobian -/

/-- What an entry of the Jacobian does to a step. -/
noncomputable def jacAct (N : PfNet s) (inp : PfInput s) (type : Nat → LoadType) (fixed : Nat → Option (RV s ℝ)) (pol : Nat → Polar s)
    (u : Nat → CV s) (r c : Nat) (η : CV s) : CV s :=
  (fun p => ∑ q, powerFlow (nodal N.T N.y.param r c) (u r) (u c) p q * star (η q)) +
    if r = c then taken N u r * η +
      (((onBus N.loadBus r).map fun k p => (loadSlope inp (type k) (fixed k) k (pol r).v).cplx p * ((η p).re : ℂ)).sum +
        ((onBus N.sourceBus r).map fun k => (fun p => ∑ q, powerFlow (yRef s (N.y1 k) (N.y0 k)) (u r) (u r) p q * star (η q)) -
          u r * star (physicalSource N inp (u r) k) * η).sum) else 0

/-- The right-hand side of a row. -/
noncomputable def rhsOf (N : PfNet s) (inp : PfInput s) (type : Nat → LoadType) (fixed : Nat → Option (RV s ℝ)) (pol : Nat → Polar s)
    (u : Nat → CV s) (r : Nat) : CV s :=
  ((onBus N.loadBus r).map (given inp type fixed (pol r).v)).sum + ((onBus N.sourceBus r).map fun k => u r * star (physicalSource N inp (u r) k)).sum -
    taken N u r

/-- A row holds the equations of its bus. -/
def RowIs (N : PfNet s) (inp : PfInput s) (type : Nat → LoadType) (fixed : Nat → Option (RV s ℝ)) (pol : Nat → Polar s) (u : Nat → CV s)
    (x : Sys s) (r : Nat) : Prop :=
  (x.pq r).cplx = rhsOf N inp type fixed pol u r ∧
  ∀ c k, EntryAt N.S.rowIndptrLu N.S.colIndicesLu r c k → ∃ b, x.jac[k]? = some b ∧ ∀ η, act b η = jacAct N inp type fixed pol u r c η

/-- **The Jacobian and the right-hand side after `build_jacobian_and_rhs`, whatever they held before.** -/
theorem build_get {N : PfNet s} (hN : N.Valid) (inp : PfInput s) (type : Nat → LoadType) (fixed : Nat → Option (RV s ℝ)) (pol : Nat → Polar s)
    (u : Nat → CV s) (skip : Nat → Bool) (x : Sys s) (hx : x.jac.length = N.S.colIndicesLu.length) :
    (build N inp type fixed pol u skip x).jac.length = N.S.colIndicesLu.length ∧ ∀ r, r < N.T.nBus →
      (skip r = false → RowIs N inp type fixed pol u (build N inp type fixed pol u skip x) r) ∧
      (skip r = true → SameRow N r x (build N inp type fixed pol u skip x)) := by
  unfold build
  obtain ⟨n1, n2⟩ := rows_loop (netRow_local hN u) skip (List.range N.T.nBus) List.nodup_range (fun r hr => List.mem_range.mp hr) x
  have hnet : network N u skip x = (List.range N.T.nBus).foldl (fun x r => if skip r then x else netRow N u x r) x := rfl
  rw [← hnet] at n1 n2
  obtain ⟨b1, b2⟩ := rows_loop (buildBus_local hN inp type fixed pol u) skip (List.range N.T.nBus) List.nodup_range
    (fun r hr => List.mem_range.mp hr) (network N u skip x)
  refine ⟨by rw [b1, n1, hx], fun r hr => ⟨fun hs => ?_, fun hs => ?_⟩⟩
  · obtain ⟨x1, l1, s1, s2⟩ := (n2 r hr).1 (List.mem_range.mpr hr) hs
    obtain ⟨x2, l2, t1, t2⟩ := (b2 r hr).1 (List.mem_range.mpr hr) hs
    obtain ⟨p1, p2⟩ := netRow_spec hN u x1 (l1.trans hx) r hr
    have h2 := s2.trans t1
    obtain ⟨q1, q2, q3, q4, q5⟩ := buildBus_spec N inp type fixed pol u x2 r
    refine ⟨?_, fun c k hk => ?_⟩
    · rw [t2.1, q5, h2.1, p1]
      unfold rhsOf
      abel
    · obtain ⟨b, e1, e2⟩ := p2 c k hk
      have e3 : x2.jac[k]? = some b := (h2.2 c k hk).trans e1
      rw [t2.2 c k hk]
      by_cases hrc : r = c
      · have hd := (diag_entry hN hr hk).mpr hrc
        rw [hd] at q3
        obtain ⟨b', f1, f2⟩ := q3 b e3
        refine ⟨b', f1, fun η => ?_⟩
        rw [f2, e2]
        unfold jacAct
        rw [if_pos hrc, if_pos hrc, add_assoc]
      · rw [q2 k (fun e => hrc ((diag_entry hN hr hk).mp e.symm))]
        refine ⟨b, e3, fun η => ?_⟩
        rw [e2]
        unfold jacAct
        rw [if_neg hrc, if_neg hrc]
  · exact ((n2 r hr).2 (Or.inr hs)).trans ((b2 r hr).2 (Or.inr hs))

end PGM.NewtonPf
