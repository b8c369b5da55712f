import Verif.ShortCircuit.Lemmas

/-!
# Short-circuit calculation: the equations
-/

namespace PGM.ShortCircuit

open PGM.YBus PGM.Component PGM.PowerFlow PGM.Lu

variable {s : Symm}

theorem structure_of {N : PfNet s} (hN : N.Valid) : IsStructure N.T N.S := by
  obtain ⟨S', hS', I⟩ := structure_correct hN.topo
  rw [hN.structure_] at hS'
  injection hS' with hS'
  rw [← hS'] at I
  exact I

/-- The data of a matrix hold the blocks `A`. -/
abbrev Has (N : PfNet s) (mat : List (CM s)) (A : Nat → Nat → CM s) : Prop := Holds (luPattern N.S) N.T.nBus (InLu N.T) mat A

/-- The matrix with another column. -/
def withCol (b : Nat) (col : Nat → CM s) (A : Nat → Nat → CM s) (r c : Nat) : CM s := if c = b then col r else A r c

theorem row_entry {n : Nat} {indptr cols : List Nat} {pat : Nat → Nat → Prop} (I : IsCsr n indptr cols pat) {r : Nat} (hr : r < n) {k : Nat}
    (hk : k ∈ List.range' (indptr[r]?.getD 0) (indptr[r + 1]?.getD 0 - indptr[r]?.getD 0)) : ∃ c, EntryAt indptr cols r c k := by
  obtain ⟨a, z, ha, hz, haz⟩ := I.mono r hr
  rw [ha, hz] at hk
  simp only [Option.getD_some] at hk
  rw [List.mem_range'_1] at hk
  have hzl : z ≤ cols.length := by
    have : ∀ d q v, d + q = n → indptr[q]? = some v → v ≤ cols.length := by
      intro d
      induction d with
      | zero =>
        intro q v hq hv'
        rw [Nat.zero_add] at hq
        rw [hq, I.last] at hv'
        injection hv' with hv'; omega
      | succ d ih =>
        intro q v hq hv'
        obtain ⟨a', z', e1, e2, e3⟩ := I.mono q (by omega)
        rw [hv'] at e1
        injection e1 with e1
        have := ih (q + 1) z' (by omega) e2
        omega
    exact this (n - (r + 1)) (r + 1) z (by omega) hz
  have hkl : k < cols.length := by omega
  exact ⟨cols[k], a, z, ha, hz, hk.1, by omega, List.getElem?_eq_getElem hkl⟩

theorem entry_in_row {indptr cols : List Nat} {r c k : Nat} (h : EntryAt indptr cols r c k) :
    k ∈ List.range' (indptr[r]?.getD 0) (indptr[r + 1]?.getD 0 - indptr[r]?.getD 0) := by
  obtain ⟨a, z, ha, hz, h1, h2, _⟩ := h
  rw [ha, hz]
  simp only [Option.getD_some]
  rw [List.mem_range'_1]
  omega

theorem fold_set_map {A : Type} (d : A) (T : Nat → Nat) (f : A → A) (ks : List Nat) (hn : (ks.map T).Nodup) (m : List A) :
    let r := ks.foldl (fun m k => m.set (T k) (f (m[T k]?.getD d))) m
    r.length = m.length ∧ (∀ j, j ∉ ks.map T → r[j]? = m[j]?) ∧
      (∀ j, j ∈ ks.map T → j < m.length → r[j]? = some (f (m[j]?.getD d))) := by
  induction ks generalizing m with
  | nil => simp
  | cons a ks ih =>
    rw [List.map_cons, List.nodup_cons] at hn
    simp only [List.foldl_cons]
    obtain ⟨i1, i2, i3⟩ := ih hn.2 (m.set (T a) (f (m[T a]?.getD d)))
    refine ⟨by rw [i1]; simp, fun j hj => ?_, fun j hj hlt => ?_⟩
    · rw [List.map_cons, List.mem_cons, not_or] at hj
      rw [i2 j hj.2, List.getElem?_set_ne (Ne.symm hj.1)]
    · rw [List.map_cons, List.mem_cons] at hj
      by_cases hja : j = T a
      · subst hja
        rw [i2 _ hn.1, List.getElem?_set_self hlt]
      · have hj' : j ∈ ks.map T := hj.resolve_left hja
        rw [i3 j hj' (by simpa using hlt), List.getElem?_set_ne (Ne.symm hja)]

theorem columnLoop_has {N : PfNet s} (hN : N.Valid) {b : Nat} (hb : b < N.T.nBus) {f : CM s → CM s} (hf : f 0 = 0) {mat : List (CM s)}
    {A : Nat → Nat → CM s} (h : Has N mat A) : Has N (columnLoop N b f mat) (withCol b (fun r => f (A r b)) A) := by
  have I := structure_of hN
  unfold columnLoop
  set ks := List.range' (N.S.rowIndptrLu[b]?.getD 0) (N.S.rowIndptrLu[b + 1]?.getD 0 - N.S.rowIndptrLu[b]?.getD 0) with hks
  set T : Nat → Nat := fun k => N.S.transposeEntry[k]?.getD 0 with hT
  have hmem : ∀ k ∈ ks, ∃ c, c < N.T.nBus ∧ EntryAt N.S.rowIndptrLu N.S.colIndicesLu b c k ∧ EntryAt N.S.rowIndptrLu N.S.colIndicesLu c b (T k) := by
    intro k hk
    obtain ⟨c, hc⟩ := row_entry I.lu hb hk
    obtain ⟨k', e1, e2⟩ := I.transpose.2 b c k hc
    refine ⟨c, inLu_range hN.topo hb c ((I.lu.pattern b hb c).mp ⟨k, hc⟩), hc, ?_⟩
    simp only [hT, e1]
    exact e2
  have hnd : (ks.map T).Nodup := by
    rw [List.nodup_map_iff_inj_on (List.nodup_range' (step := 1))]
    intro x hx y hy e
    obtain ⟨c, hc, h1, h2⟩ := hmem x hx
    obtain ⟨c', hc', h1', h2'⟩ := hmem y hy
    rw [← e] at h2'
    obtain ⟨e1, _⟩ := csr_row_unique I.lu hc hc' h2 h2'
    subst e1
    exact entry_unique I.lu h1 h1'
  obtain ⟨l1, l2, l3⟩ := fold_set_map (0 : CM s) T f ks hnd mat
  refine ⟨l1.trans h.len, fun r c i hr hi => ?_, fun r c hr hc hp => ?_⟩
  · have hc : c < N.T.nBus := inLu_range hN.topo hr c ((I.lu.pattern r hr c).mp ⟨i, hi⟩)
    have hmi := h.entry r c i hr hi
    unfold withCol
    by_cases hcb : c = b
    · subst hcb
      rw [if_pos rfl]
      obtain ⟨k, hk⟩ := (I.lu.pattern c hc r).mpr (inLu_symm ((I.lu.pattern r hr c).mp ⟨i, hi⟩))
      have hkm : k ∈ ks := entry_in_row hk
      obtain ⟨k', e1, e2⟩ := I.transpose.2 c r k hk
      have hi' : i = T k := by
        simp only [hT, e1, Option.getD_some]
        exact entry_unique I.lu hi e2
      rw [l3 i (by rw [hi']; exact List.mem_map_of_mem hkm) (List.getElem?_eq_some_iff.mp hmi).1, hmi]
      rfl
    · rw [if_neg hcb, l2 i ?_, hmi]
      intro him
      obtain ⟨k, hk, rfl⟩ := List.mem_map.mp him
      obtain ⟨c', hc', _, h2⟩ := hmem k hk
      exact hcb (csr_row_unique I.lu hr hc' hi h2).2
  · unfold withCol
    by_cases hcb : c = b
    · subst hcb; rw [if_pos rfl]; beta_reduce; rw [h.zero r c hr hc hp, hf]
    · rw [if_neg hcb]; exact h.zero r c hr hc hp

theorem onDiag_has {N : PfNet s} (hN : N.Valid) {b : Nat} (hb : b < N.T.nBus) (f : CM s → CM s) {mat : List (CM s)}
    {A : Nat → Nat → CM s} (h : Has N mat A) : Has N (onDiag N b f mat) (withCol b (fun r => if r = b then f (A r b) else A r b) A) := by
  have I := structure_of hN
  obtain ⟨k, hk1, hk2⟩ := I.diag.2 b hb
  unfold onDiag
  rw [hk1]
  simp only [Option.getD_some]
  have hm := h.entry b b k hb hk2
  refine ⟨by simp [h.len], fun r c i hr hi => ?_, fun r c hr hc hp => ?_⟩
  · have hmi := h.entry r c i hr hi
    unfold withCol
    by_cases hki : k = i
    · subst hki
      obtain ⟨rfl, rfl⟩ := csr_row_unique I.lu hr hb hi hk2
      rw [if_pos rfl]
      beta_reduce
      rw [if_pos rfl, List.getElem?_set_self (List.getElem?_eq_some_iff.mp hm).1, hm]
      rfl
    · rw [List.getElem?_set_ne hki, hmi]
      by_cases hcb : c = b
      · subst hcb
        rw [if_pos rfl]
        beta_reduce
        rw [if_neg]
        rintro rfl
        exact hki (entry_unique I.lu hk2 hi)
      · rw [if_neg hcb]
  · unfold withCol
    have hne : ¬ (r = c) := fun e => hp (Or.inl (Or.inl e))
    by_cases hcb : c = b
    · subst hcb
      rw [if_pos rfl]
      beta_reduce
      rw [if_neg hne]
      exact h.zero r c hr hc hp
    · rw [if_neg hcb]; exact h.zero r c hr hc hp

theorem withCol_withCol (b : Nat) (c1 : Nat → CM s) (g : Nat → CM s → CM s) (A : Nat → Nat → CM s) :
    withCol b (fun r => g r (withCol b c1 A r b)) (withCol b c1 A) = withCol b (fun r => g r (c1 r)) A := by
  funext r c
  unfold withCol
  by_cases h : c = b <;> simp [h]

theorem zeroCol_zero {n : Nat} (p : Fin n) : zeroCol p 0 = 0 := by funext i j; simp [zeroCol]

theorem addCol_zero {n : Nat} (p q : Fin n) : addCol p q 0 = 0 := by funext i j; simp [addCol]

theorem addSolid_has {N : PfNet s} (hN : N.Valid) {b : Nat} (hb : b < N.T.nBus) (kind : Kind s.phases) {x : Lin s} {A : Nat → Nat → CM s}
    (h : Has N x.mat A) :
    Has N (addSolid N kind b x).mat (withCol b (solidCol kind b fun r => A r b) A) ∧
      (addSolid N kind b x).rhs = Function.update x.rhs b (solidRhs kind (x.rhs b)) := by
  cases kind with
  | three =>
    refine ⟨?_, rfl⟩
    have := onDiag_has hN hb (fun _ => Matrix.diagonal fun _ => -1) (columnLoop_has hN hb (f := fun _ => 0) rfl h)
    rw [withCol_withCol b _ (fun r m => if r = b then Matrix.diagonal fun _ => -1 else m)] at this
    exact this
  | single p =>
    refine ⟨?_, rfl⟩
    have := onDiag_has hN hb (setEntry p p (-1)) (columnLoop_has hN hb (zeroCol_zero p) h)
    rw [withCol_withCol b _ (fun r m => if r = b then setEntry p p (-1) m else m)] at this
    exact this
  | two p q =>
    refine ⟨?_, rfl⟩
    have := onDiag_has hN hb (fun m => setEntry q q 1 (setEntry p q (-1) m))
      (columnLoop_has hN hb (f := fun m => zeroCol q (addCol p q m)) (by rw [addCol_zero, zeroCol_zero]) h)
    rw [withCol_withCol b _ (fun r m => if r = b then setEntry q q 1 (setEntry p q (-1) m) else m)] at this
    exact this
  | ground p q =>
    refine ⟨?_, rfl⟩
    have := onDiag_has hN hb (fun m => setEntry q q (-1) (setEntry p p (-1) m))
      (columnLoop_has hN hb (f := fun m => zeroCol q (zeroCol p m)) (by rw [zeroCol_zero, zeroCol_zero]) h)
    rw [withCol_withCol b _ (fun r m => if r = b then setEntry q q (-1) (setEntry p p (-1) m) else m)] at this
    exact this

theorem addFinite_has {N : PfNet s} (hN : N.Valid) {b : Nat} (hb : b < N.T.nBus) (kind : Kind s.phases) (y : ℂ) {x : Lin s} {A : Nat → Nat → CM s}
    (h : Has N x.mat A) :
    Has N (addFinite N kind b y x).mat (withCol b (finStep kind b y fun r => A r b) A) ∧
      (addFinite N kind b y x).rhs = Function.update x.rhs b (finRhsStep kind (x.rhs b)) := by
  cases kind with
  | three => exact ⟨onDiag_has hN hb (fun m => m + Matrix.diagonal fun _ => y) h, by simp [addFinite, finRhsStep]⟩
  | single p => exact ⟨onDiag_has hN hb (addEntry p p y) h, by simp [addFinite, finRhsStep]⟩
  | two p q =>
    exact ⟨onDiag_has hN hb (fun m => addEntry q p (-y) (addEntry p q (-y) (addEntry q q y (addEntry p p y m)))) h,
      by simp [addFinite, finRhsStep]⟩
  | ground p q =>
    refine ⟨?_, rfl⟩
    have := onDiag_has hN hb (fun m => addEntry q p y (setEntry q q 1 (setEntry p q (-1) m)))
      (columnLoop_has hN hb (f := fun m => zeroCol q (addCol p q m)) (by rw [addCol_zero, zeroCol_zero]) h)
    rw [withCol_withCol b _ (fun r m => if r = b then addEntry q p y (setEntry q q 1 (setEntry p q (-1) m)) else m)] at this
    exact this

/-! ## The faults of a bus -/

/-- Is one of the faults without impedance? -/
def anySolid (y : Nat → Option ℂ) (ks : List Nat) : Bool := ks.any fun k => (y k).isNone

/-- The sum of the finite admittances. -/
noncomputable def sumFinite (y : Nat → Option ℂ) (ks : List Nat) : ℂ := (ks.map fun k => (y k).getD 0).sum

/-- Column of a bus after its faults. -/
noncomputable def faultCol (kind : Kind s.phases) (b : Nat) (solid : Bool) (n : Nat) (y : ℂ) (col : Nat → CM s) : Nat → CM s :=
  if solid then solidCol kind b col else finCol kind b n y col

/-- Right-hand side of a bus after its faults. -/
noncomputable def faultRhs (kind : Kind s.phases) (solid : Bool) (n : Nat) (v : CV s) : CV s :=
  if solid then solidRhs kind v else finRhs kind n v

theorem withCol_self (b : Nat) (A : Nat → Nat → CM s) : withCol b (fun r => A r b) A = A := by
  funext r c; unfold withCol; by_cases h : c = b <;> simp [h]

theorem withCol_over (b : Nat) (c1 c2 : Nat → CM s) (A : Nat → Nat → CM s) : withCol b c2 (withCol b c1 A) = withCol b c2 A := by
  funext r c; unfold withCol; by_cases h : c = b <;> simp [h]

theorem withCol_col (b : Nat) (c1 : Nat → CM s) (A : Nat → Nat → CM s) : (fun r => withCol b c1 A r b) = c1 := by
  funext r; unfold withCol; simp

theorem addFaults_has {N : PfNet s} (hN : N.Valid) {b : Nat} (hb : b < N.T.nBus) (y : Nat → Option ℂ) {kind : Kind s.phases} (hk : kind.Proper)
    (ks : List Nat) {A : Nat → Nat → CM s} (col : Nat → CM s) (v : CV s) (n : Nat) (z : ℂ) (hz : n = 0 → z = 0) {x : Lin s} (cnt : Nat)
    (h : Has N x.mat (withCol b (finCol kind b n z col) A)) (hv : x.rhs b = finRhs kind n v) :
    Has N (addFaults N y kind b ks x cnt).1.mat (withCol b (faultCol kind b (anySolid y ks) (n + ks.length) (z + sumFinite y ks) col) A) ∧
    (addFaults N y kind b ks x cnt).1.rhs = Function.update x.rhs b (faultRhs kind (anySolid y ks) (n + ks.length) v) ∧
    (addFaults N y kind b ks x cnt).2 = cnt + if anySolid y ks then 1 else 0 := by
  induction ks generalizing n z x with
  | nil =>
    simp only [addFaults, anySolid, sumFinite, List.any_nil, List.map_nil, List.sum_nil, List.length_nil, Nat.add_zero, add_zero, faultCol, faultRhs,
      Bool.false_eq_true, if_false]
    refine ⟨h, ?_, trivial⟩
    rw [← hv, Function.update_eq_self]
  | cons k ks ih =>
    cases hy : y k with
    | none =>
      obtain ⟨h1, h2⟩ := addSolid_has hN hb kind h
      have hs : anySolid y (k :: ks) = true := by simp [anySolid, hy]
      have e : addFaults N y kind b (k :: ks) x cnt = (addSolid N kind b x, cnt + 1) := by
        simp only [addFaults, hy]
      rw [e, hs]
      simp only [faultCol, faultRhs, if_true]
      refine ⟨?_, ?_, trivial⟩
      · rw [withCol_col, withCol_over, solid_finCol hk] at h1
        exact h1
      · rw [h2, hv, solid_finRhs hk]
    | some w =>
      obtain ⟨h1, h2⟩ := addFinite_has hN hb kind w h
      rw [withCol_col, withCol_over, finStep_finCol hk b n z w hz] at h1
      have e : addFaults N y kind b (k :: ks) x cnt = addFaults N y kind b ks (addFinite N kind b w x) cnt := by
        simp only [addFaults, hy]
      have hs : anySolid y (k :: ks) = anySolid y ks := by simp [anySolid, hy]
      have hsum : z + sumFinite y (k :: ks) = z + w + sumFinite y ks := by simp [sumFinite, hy, add_assoc]
      obtain ⟨i1, i2, i3⟩ := ih (n + 1) (z + w) (fun h => absurd h (by omega)) h1
        (by rw [h2, Function.update_self, hv, finRhsStep_finRhs hk])
      rw [e, hs, hsum, List.length_cons, show n + (ks.length + 1) = n + 1 + ks.length by omega]
      refine ⟨i1, ?_, i3⟩
      rw [i2, h2, Function.update_idem]

/-! ## Sources -/

/-- The admittance of the sources of a bus. -/
noncomputable def sourceY (N : PfNet s) (b : Nat) : CM s := ((onBus N.sourceBus b).map fun k => yRef s (N.y1 k) (N.y0 k)).sum

/-- The Norton current of the sources of a bus. -/
noncomputable def sourceI (N : PfNet s) (inp : ScInput) (b : Nat) : CV s :=
  ((onBus N.sourceBus b).map fun k => dot s (yRef s (N.y1 k) (N.y0 k)) (spread s (inp.source k))).sum

theorem addSources_has {N : PfNet s} (hN : N.Valid) {b : Nat} (hb : b < N.T.nBus) (inp : ScInput) {x : Lin s} {A : Nat → Nat → CM s}
    (h : Has N x.mat A) :
    Has N (addSources N inp b x).mat (withCol b (fun r => if r = b then A r b + sourceY N b else A r b) A) ∧
      (addSources N inp b x).rhs = Function.update x.rhs b (x.rhs b + sourceI N inp b) := by
  have main : ∀ (l : List Nat) (x : Lin s) (A : Nat → Nat → CM s), Has N x.mat A →
      Has N (l.foldl (fun x k => addSourceRhs N ⟨inp.source, fun _ => 0⟩ b (addSourceDiag N b x k) k) x).mat
        (withCol b (fun r => if r = b then A r b + (l.map fun k => yRef s (N.y1 k) (N.y0 k)).sum else A r b) A) ∧
      (l.foldl (fun x k => addSourceRhs N ⟨inp.source, fun _ => 0⟩ b (addSourceDiag N b x k) k) x).rhs =
        Function.update x.rhs b (x.rhs b + (l.map fun k => dot s (yRef s (N.y1 k) (N.y0 k)) (spread s (inp.source k))).sum) := by
    intro l
    induction l with
    | nil =>
      intro x A h
      simp only [List.foldl_nil, List.map_nil, List.sum_nil, add_zero, ite_self, Function.update_eq_self]
      rw [withCol_self]
      exact ⟨h, trivial⟩
    | cons k l ih =>
      intro x A h
      rw [List.foldl_cons]
      have h1 : Has N (addSourceRhs N ⟨inp.source, fun _ => 0⟩ b (addSourceDiag N b x k) k).mat
          (withCol b (fun r => if r = b then A r b + yRef s (N.y1 k) (N.y0 k) else A r b) A) :=
        onDiag_has hN hb (fun m => m + yRef s (N.y1 k) (N.y0 k)) h
      obtain ⟨i1, i2⟩ := ih _ _ h1
      refine ⟨?_, ?_⟩
      · rw [withCol_withCol b _ (fun r m => if r = b then m + (l.map fun k => yRef s (N.y1 k) (N.y0 k)).sum else m)] at i1
        have : (fun r => if r = b then (if r = b then A r b + yRef s (N.y1 k) (N.y0 k) else A r b) +
            (l.map fun k => yRef s (N.y1 k) (N.y0 k)).sum else (if r = b then A r b + yRef s (N.y1 k) (N.y0 k) else A r b)) =
            fun r => if r = b then A r b + ((k :: l).map fun k => yRef s (N.y1 k) (N.y0 k)).sum else A r b := by
          funext r
          by_cases hr : r = b
          · simp [hr, add_assoc]
          · simp [hr]
        rw [this] at i1
        exact i1
      · rw [i2]
        simp [addSourceRhs, addSourceDiag, add_assoc]
  exact main _ x A h

/-! ## All buses -/

/-- Column of a bus in the equations, from its column in the admittance matrix. -/
noncomputable def eqCol (N : PfNet s) (inp : ScInput) (kind : Kind s.phases) (b : Nat) (col : Nat → CM s) : Nat → CM s :=
  faultCol kind b (anySolid (admittance inp) (onBus inp.faultBus b)) (onBus inp.faultBus b).length
    (sumFinite (admittance inp) (onBus inp.faultBus b)) fun r => if r = b then col r + sourceY N b else col r

/-- Right-hand side of a bus in the equations. -/
noncomputable def eqRhs (N : PfNet s) (inp : ScInput) (kind : Kind s.phases) (b : Nat) : CV s :=
  faultRhs kind (anySolid (admittance inp) (onBus inp.faultBus b)) (onBus inp.faultBus b).length (sourceI N inp b)

theorem equationBus_has {N : PfNet s} (hN : N.Valid) {b : Nat} (hb : b < N.T.nBus) (inp : ScInput) {kind : Kind s.phases} (hk : kind.Proper)
    {x : Lin s × (Nat → Nat)} {A : Nat → Nat → CM s} (h : Has N x.1.mat A) (h0 : x.1.rhs b = 0) :
    Has N (equationBus N inp kind x b).1.mat (withCol b (eqCol N inp kind b fun r => A r b) A) ∧
    (equationBus N inp kind x b).1.rhs = Function.update x.1.rhs b (eqRhs N inp kind b) ∧
    (equationBus N inp kind x b).2 = Function.update x.2 b (x.2 b + if anySolid (admittance inp) (onBus inp.faultBus b) then 1 else 0) := by
  obtain ⟨s1, s2⟩ := addSources_has hN hb inp h
  unfold equationBus
  simp only
  have hcol : withCol b (finCol kind b 0 0 fun r => if r = b then A r b + sourceY N b else A r b) A =
      withCol b (fun r => if r = b then A r b + sourceY N b else A r b) A := by rw [finCol_zero]
  obtain ⟨f1, f2, f3⟩ := addFaults_has hN hb (admittance inp) hk (onBus inp.faultBus b) (A := A)
    (fun r => if r = b then A r b + sourceY N b else A r b) (sourceI N inp b) 0 0 (fun _ => rfl) (x.2 b) (hcol ▸ s1)
    (by rw [s2, Function.update_self, h0, zero_add, finRhs_zero])
  rw [Nat.zero_add, zero_add] at f1
  rw [Nat.zero_add] at f2
  refine ⟨f1, ?_, by rw [f3]⟩
  rw [f2, s2, Function.update_idem]
  rfl

theorem equations_has {N : PfNet s} (hN : N.Valid) (inp : ScInput) {kind : Kind s.phases} (hk : kind.Proper) :
    Has N (equations N inp kind).1.mat (fun r c => eqCol N inp kind c (fun r => nodal N.T N.y.param r c) r) ∧
    (∀ b, b < N.T.nBus → (equations N inp kind).1.rhs b = eqRhs N inp kind b) ∧
    (∀ b, b < N.T.nBus → (equations N inp kind).2 b = if anySolid (admittance inp) (onBus inp.faultBus b) then 1 else 0) := by
  have I := structure_of hN
  have hc := coherent_of_valid hN
  have hcopy : Has N (copyYBus N) (nodal N.T N.y.param) := by
    refine ⟨copy_length hN, fun r c k _ hk => ?_, fun r c _ _ h => nodal_zero _ fun h' => h (Or.inl h')⟩
    unfold copyYBus
    rw [List.getElem?_map]
    obtain ⟨m1, m2⟩ := I.map.2 r c k hk
    by_cases hy : InY N.T r c
    · obtain ⟨k', e1, e2⟩ := m1 hy
      rw [e1]
      simp only [Option.map_some]
      rw [hc.value k' (entry_elements hN.topo hN.structure_ e2).1, entry_is_nodal hN.topo hN.structure_ _ e2, Option.getD_some]
    · rw [m2 hy, nodal_zero _ hy]
      rfl
  have main : ∀ (l : List Nat) (x : Lin s × (Nat → Nat)) (A : Nat → Nat → CM s), l.Nodup → (∀ b ∈ l, b < N.T.nBus) → Has N x.1.mat A →
      (∀ b ∈ l, x.1.rhs b = 0 ∧ x.2 b = 0) →
      Has N (l.foldl (equationBus N inp kind) x).1.mat (fun r c => if c ∈ l then eqCol N inp kind c (fun r => A r c) r else A r c) ∧
      (∀ b, (l.foldl (equationBus N inp kind) x).1.rhs b = if b ∈ l then eqRhs N inp kind b else x.1.rhs b) ∧
      (∀ b, (l.foldl (equationBus N inp kind) x).2 b =
        if b ∈ l then (if anySolid (admittance inp) (onBus inp.faultBus b) then 1 else 0) else x.2 b) := by
    intro l
    induction l with
    | nil => intro x A _ _ h _; simpa using h
    | cons b l ih =>
      intro x A hn hlt h h0
      rw [List.nodup_cons] at hn
      obtain ⟨e1, e2, e3⟩ := equationBus_has hN (hlt b (by simp)) inp hk h (h0 b (by simp)).1
      rw [List.foldl_cons]
      have hne : ∀ c ∈ l, c ≠ b := fun c hc e => hn.1 (e ▸ hc)
      obtain ⟨i1, i2, i3⟩ := ih (equationBus N inp kind x b) _ hn.2 (fun c hc => hlt c (by simp [hc])) e1 (by
        intro c hc
        rw [e2, e3, Function.update_of_ne (hne c hc), Function.update_of_ne (hne c hc)]
        exact h0 c (by simp [hc]))
      refine ⟨?_, fun c => ?_, fun c => ?_⟩
      · have : (fun r c => if c ∈ l then eqCol N inp kind c (fun r => withCol b (eqCol N inp kind b fun r => A r b) A r c) r
            else withCol b (eqCol N inp kind b fun r => A r b) A r c) =
            fun r c => if c ∈ b :: l then eqCol N inp kind c (fun r => A r c) r else A r c := by
          funext r c
          by_cases hcl : c ∈ l
          · have hcb := hne c hcl
            rw [if_pos hcl, if_pos (by simp [hcl])]
            have : (fun r => withCol b (eqCol N inp kind b fun r => A r b) A r c) = fun r => A r c := by
              funext r'; unfold withCol; rw [if_neg hcb]
            rw [this]
          · rw [if_neg hcl]
            unfold withCol
            by_cases hcb : c = b
            · subst hcb; simp
            · rw [if_neg hcb, if_neg (by simp [hcb, hcl])]
        rw [this] at i1
        exact i1
      · rw [i2, e2]
        by_cases hcb : c = b
        · subst hcb; rw [if_neg hn.1, if_pos List.mem_cons_self, Function.update_self]
        · rw [Function.update_of_ne hcb]; simp [hcb]
      · rw [i3, e3]
        by_cases hcb : c = b
        · subst hcb; rw [if_neg hn.1, if_pos List.mem_cons_self, Function.update_self, (h0 c (by simp)).2, Nat.zero_add]
        · rw [Function.update_of_ne hcb]; simp [hcb]
  obtain ⟨m1, m2, m3⟩ := main (List.range N.T.nBus) (⟨copyYBus N, fun _ => 0⟩, fun _ => 0) _ List.nodup_range
    (fun b hb => List.mem_range.mp hb) hcopy (fun _ _ => ⟨rfl, rfl⟩)
  refine ⟨⟨m1.len, fun r c i hr hi => ?_, fun r c hr hc' hp => ?_⟩, fun b hb => ?_, fun b hb => ?_⟩
  · rw [show equations N inp kind = (List.range N.T.nBus).foldl (equationBus N inp kind) (⟨copyYBus N, fun _ => 0⟩, fun _ => 0) from rfl,
      m1.entry r c i hr hi, if_pos]
    exact List.mem_range.mpr (inLu_range hN.topo hr c ((I.lu.pattern r hr c).mp ⟨i, hi⟩))
  · have := m1.zero r c hr hc' hp
    rwa [if_pos (List.mem_range.mpr hc')] at this
  · exact (m2 b).trans (if_pos (List.mem_range.mpr hb))
  · exact (m3 b).trans (if_pos (List.mem_range.mpr hb))

/-- A row of the equations, for any vector. -/
theorem equations_row {N : PfNet s} (hN : N.Valid) (inp : ScInput) {kind : Kind s.phases} (hk : kind.Proper) (x : Nat → CV s) {r : Nat}
    (hr : r < N.T.nBus) :
    luRow N (equations N inp kind).1.mat x r =
      ∑ c ∈ Finset.range N.T.nBus, dot s (eqCol N inp kind c (fun r => nodal N.T N.y.param r c) r) (x c) := by
  have I := structure_of hN
  obtain ⟨h, _, _⟩ := equations_has hN inp hk
  unfold luRow
  rw [csr_row I.lu r hr (inLu_range hN.topo hr) _
    (fun c => if c < N.T.nBus then eqCol N inp kind c (fun r => nodal N.T N.y.param r c) r else 0) (fun c k hk => ?_) (fun c hc => ?_) (dot s) x]
  · refine Finset.sum_congr rfl fun c hc => ?_
    rw [if_pos (Finset.mem_range.mp hc)]
  · rw [if_pos (inLu_range hN.topo hr c ((I.lu.pattern r hr c).mp ⟨k, hk⟩))]
    exact h.entry r c k hr hk
  · by_cases hcn : c < N.T.nBus
    · rw [if_pos hcn]; exact h.zero r c hr hcn hc
    · rw [if_neg hcn]

/-- The voltages that a solution of the equations means. -/
noncomputable def voltageOf (inp : ScInput) (kind : Kind s.phases) (x : Nat → CV s) (b : Nat) : CV s :=
  busVoltage kind (anySolid (admittance inp) (onBus inp.faultBus b)) (onBus inp.faultBus b).length (x b)

/-- The total fault current that a solution of the equations means. -/
noncomputable def faultOf (N : PfNet s) (inp : ScInput) (kind : Kind s.phases) (x : Nat → CV s) (b : Nat) : CV s :=
  busFault kind (anySolid (admittance inp) (onBus inp.faultBus b)) (onBus inp.faultBus b).length (sumFinite (admittance inp) (onBus inp.faultBus b))
    (x b) (sourceI N inp b)

/-- The residual of the equations is the residual of the network equations with the fault currents. -/
theorem equations_residual {N : PfNet s} (hN : N.Valid) (inp : ScInput) {kind : Kind s.phases} (hk : kind.Proper) (x : Nat → CV s)
    {b : Nat} (hb : b < N.T.nBus) :
    luRow N (equations N inp kind).1.mat x b - (equations N inp kind).1.rhs b =
      busCurrent N.S N.y (dot s) (voltageOf inp kind x) b + faultOf N inp kind x b -
        (sourceI N inp b - dot s (sourceY N b) (voltageOf inp kind x b)) := by
  rw [equations_row hN inp hk x hb, (equations_has hN inp hk).2.1 b hb]
  rw [busCurrent_eq hN.topo hN.structure_ (coherent_of_valid hN) (dot s) _ b hb]
  have hterm : ∀ c, c ≠ b → dot s (eqCol N inp kind c (fun r => nodal N.T N.y.param r c) b) (x c) =
      dot s (nodal N.T N.y.param b c) (voltageOf inp kind x c) := by
    intro c hcb
    unfold eqCol faultCol voltageOf
    cases hs : anySolid (admittance inp) (onBus inp.faultBus c)
    · simp only [Bool.false_eq_true, if_false]
      rw [fin_off kind hk _ _ (Ne.symm hcb), if_neg (Ne.symm hcb)]
    · simp only [if_true]
      rw [solid_off kind hk (onBus inp.faultBus c).length (Ne.symm hcb), if_neg (Ne.symm hcb)]
  have hdiag : dot s (eqCol N inp kind b (fun r => nodal N.T N.y.param r b) b) (x b) - eqRhs N inp kind b =
      dot s (nodal N.T N.y.param b b + sourceY N b) (voltageOf inp kind x b) - sourceI N inp b + faultOf N inp kind x b := by
    unfold eqCol faultCol voltageOf faultOf eqRhs faultRhs
    cases hs : anySolid (admittance inp) (onBus inp.faultBus b)
    · simp only [Bool.false_eq_true, if_false]
      rw [fin_diag kind hk]
      simp
    · simp only [if_true]
      rw [solid_diag kind hk (onBus inp.faultBus b).length b (sumFinite (admittance inp) (onBus inp.faultBus b))]
      simp
  have hmem : b ∈ Finset.range N.T.nBus := Finset.mem_range.mpr hb
  rw [← Finset.add_sum_erase _ _ hmem, ← Finset.add_sum_erase _ _ hmem]
  rw [Finset.sum_congr rfl (fun c hc => hterm c (Finset.ne_of_mem_erase hc))]
  simp only [map_add, AddMonoidHom.add_apply] at hdiag
  set S := ∑ c ∈ (Finset.range N.T.nBus).erase b, dot s (nodal N.T N.y.param b c) (voltageOf inp kind x c)
  rw [eq_add_of_sub_eq hdiag]
  abel

/-- A solution of the equations satisfies the network equations with the fault currents, and conversely. -/
theorem equations_mean {N : PfNet s} (hN : N.Valid) (inp : ScInput) {kind : Kind s.phases} (hk : kind.Proper) (x : Nat → CV s) :
    Solves N (equations N inp kind).1 x ↔ ∀ b, b < N.T.nBus →
      busCurrent N.S N.y (dot s) (voltageOf inp kind x) b + faultOf N inp kind x b =
        sourceI N inp b - dot s (sourceY N b) (voltageOf inp kind x b) := by
  refine forall_congr' fun b => forall_congr' fun hb => ?_
  rw [← sub_eq_zero, equations_residual hN inp hk x hb, sub_eq_zero]

end PGM.ShortCircuit
