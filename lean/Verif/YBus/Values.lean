import Verif.YBus.Props

/-!
# The admittance matrix: values and incremental updates (C14, C15)
-/

namespace PGM.YBus

variable {Y : Type} [AddCommMonoid Y]

/-! ## The elements of an entry -/

/-- Everything about an entry in one place, for both kinds of island. -/
theorem entry_elements {T : Topo} (hv : T.Valid) {S : Structure} (hS : build T = some S) {r c k : Nat}
    (hk : EntryAt S.rowIndptr S.colIndices r c k) : k < S.nnz ∧ elementsOf S k = (at_ T (r, c)).map (·.el) := by
  rcases hv.covered with h | h
  · rw [build_single hv h] at hS
    injection hS with hS
    subst hS
    obtain ⟨rfl, rfl, rfl⟩ := entryAt_single.mp hk
    refine ⟨by decide, ?_⟩
    have h0 : at_ T (0, 0) = [] := by
      unfold at_
      rw [List.filter_eq_nil_iff]
      intro x hx
      rw [mem_collect, h.1, h.2.1] at hx
      rcases hx with ⟨b, k, hb, _⟩ | ⟨b, k, _, hb, _⟩ | ⟨f, k, hf, _⟩
      · simp at hb
      · simp at hb
      · have a := hv.fillRange f (List.mem_of_getElem? hf)
        have b := hv.fillOff f (List.mem_of_getElem? hf)
        omega
    rw [h0]
    rfl
  · obtain ⟨S', h1, _, h3, h4, h5, h6⟩ := build_good hv h
    rw [hS] at h1
    injection h1 with h1
    subst h1
    have hp := (h3 r c k).mp hk
    obtain ⟨hlt, hp'⟩ := List.getElem?_eq_some_iff.mp hp
    refine ⟨by rw [h4]; exact hlt, ?_⟩
    unfold elementsOf
    simp only
    rw [h5, h6]
    set N := yPos T (positions T.nBus) with hN
    have g1 : ((List.range (N.length + 1)).map fun k => ((N.take k).map fun p => (at_ T p).length).sum)[k]?.getD 0 =
        ((N.take k).map fun p => (at_ T p).length).sum := by
      rw [List.getElem?_map, List.getElem?_range (by omega)]; rfl
    have g2 : ((List.range (N.length + 1)).map fun k => ((N.take k).map fun p => (at_ T p).length).sum)[k + 1]?.getD 0 =
        ((N.take k).map fun p => (at_ T p).length).sum + (at_ T N[k]).length := by
      rw [List.getElem?_map, List.getElem?_range (by omega)]
      simp only [Option.map_some, Option.getD_some]
      rw [List.take_succ_eq_append_getElem hlt, List.map_append, List.sum_append]
      simp only [List.map_cons, List.map_nil, List.sum_cons, List.sum_nil, Nat.add_zero]
    rw [g1, g2, Nat.add_sub_cancel_left, ← List.map_drop, ← List.map_take, block (at_ T) N k hlt, hp']

/-- The elements that are stored refer to branches and shunts of the island. -/
theorem elements_in_range {T : Topo} (hv : T.Valid) {S : Structure} (hS : build T = some S) :
    ∀ e ∈ S.element, (e.type = .shunt ∧ e.idx < T.shuntBus.length) ∨
      ((e.type = .ff ∨ e.type = .ft ∨ e.type = .tf ∨ e.type = .tt) ∧ e.idx < T.branches.length) := by
  intro e he
  rcases hv.covered with h | h
  · rw [build_single hv h] at hS
    injection hS with hS
    subst hS
    simp [single] at he
  · have G := good_of_valid hv h
    obtain ⟨S', h1, _, _, _, h5, _⟩ := build_good hv h
    rw [hS] at h1
    injection h1 with h1
    subst h1
    rw [h5, List.mem_map] at he
    obtain ⟨x, hx, rfl⟩ := he
    rw [List.mem_flatMap] at hx
    obtain ⟨p, hp, hx⟩ := hx
    have hxc := (List.mem_filter.mp hx).1
    have hnf : x.el.type.isFill = false := by
      by_contra hc
      have hc : x.el.type.isFill = true := by simpa using hc
      have := G.alone p x hx hc
      have hy := (mem_yPos.mp hp).2.2
      simp [isY, this, hc] at hy
    rw [mem_collect] at hxc
    rcases hxc with ⟨b, k, hb, hxc⟩ | ⟨b, k, _, hb, rfl⟩ | ⟨f, k, hf', hxc⟩
    · right
      have hk := (List.getElem?_eq_some_iff.mp hb).1
      rw [mem_branchElems] at hxc
      rcases hxc with ⟨_, _, rfl⟩ | ⟨_, _, _, _, rfl⟩ | ⟨_, _, _, _, rfl⟩ | ⟨_, _, rfl⟩ <;> simp [hk]
    · left
      exact ⟨rfl, (List.getElem?_eq_some_iff.mp hb).1⟩
    · simp [fillElems] at hxc
      rcases hxc with rfl | rfl <;> simp [ElType.isFill] at hnf

/-! ## Sums over elements -/

/-- Sum over the elements that satisfy a condition on the position, in terms of branches and shunts. -/
theorem sum_collect {V : Type} [AddCommMonoid V] (T : Topo) (hv : T.Valid) (q : Pos → Bool) (F : ElemMap → V)
    (hF : ∀ x, x.el.type.isFill = true → F x = 0) :
    (((collect T).filter fun x => q x.pos).map F).sum =
      (T.branches.zipIdx.map fun b => (((branchElems b).filter fun x => q x.pos).map F).sum).sum +
      (T.shuntBus.zipIdx.map fun s => if q (s.1, s.1) then F ⟨(s.1, s.1), ⟨.shunt, s.2⟩⟩ else 0).sum := by
  rw [collect_eq]
  simp only [List.filter_append, List.map_append, List.sum_append]
  have h3 : (((T.fillIn.zipIdx.flatMap fillElems).filter fun x => q x.pos).map F).sum = 0 := by
    apply List.sum_eq_zero
    intro y hy
    rw [List.mem_map] at hy
    obtain ⟨x, hx, rfl⟩ := hy
    obtain ⟨hx, _⟩ := List.mem_filter.mp hx
    rw [List.mem_flatMap] at hx
    obtain ⟨f, _, hx⟩ := hx
    apply hF
    simp only [fillElems, List.mem_cons, List.not_mem_nil, or_false] at hx
    rcases hx with rfl | rfl <;> rfl
  rw [h3, add_zero]
  congr 1
  · rw [List.filter_flatMap, sum_flatMap]
  · -- the shunts, bus by bus, are a rearrangement of all shunts
    have hperm : ((List.range T.nBus).flatMap fun bus => (shuntsOf T bus).map fun k =>
        (⟨(bus, bus), ⟨.shunt, k⟩⟩ : ElemMap)).Perm (T.shuntBus.zipIdx.map fun s => ⟨(s.1, s.1), ⟨.shunt, s.2⟩⟩) := by
      have hg := perm_groups (T.shuntBus.zipIdx.map fun s => ⟨(s.1, s.1), ⟨.shunt, s.2⟩⟩)
        ((List.range T.nBus).map fun b => (b, b)) (List.nodup_range.map (fun a b h => (Prod.mk.inj h).1))
      rw [List.filter_eq_self.mpr, List.flatMap_map] at hg
      · refine List.Perm.trans (List.Perm.of_eq ?_) hg
        congr 1
        funext bus
        rw [List.filter_map]
        have : (fun k => (⟨(bus, bus), ⟨.shunt, k⟩⟩ : ElemMap)) =
          (fun s : Nat × Nat => (⟨(s.1, s.1), ⟨.shunt, s.2⟩⟩ : ElemMap)) ∘ fun k => (bus, k) := rfl
        rw [this, ← List.map_map]
        congr 1
        -- pairs with the given bus
        have key : ∀ (l : List Nat) (o : Nat), (((List.range' o l.length).filter fun k => l[k - o]? == some bus).map
            fun k => (bus, k)) = (l.zipIdx o).filter ((fun x : ElemMap => decide (x.pos = (bus, bus))) ∘
              fun s : Nat × Nat => ⟨(s.1, s.1), ⟨.shunt, s.2⟩⟩) := by
          intro l
          induction l with
          | nil => intro o; rfl
          | cons a l ih =>
            intro o
            rw [List.zipIdx_cons, List.length_cons, List.range'_succ, List.filter_cons, List.filter_cons]
            have hcong : (List.range' (o + 1) l.length).filter (fun k => (a :: l)[k - o]? == some bus) =
                (List.range' (o + 1) l.length).filter (fun k => l[k - (o + 1)]? == some bus) := by
              apply List.filter_congr
              intro k hk
              rw [List.mem_range'_1] at hk
              have : k - o = (k - (o + 1)) + 1 := by omega
              rw [this, List.getElem?_cons_succ]
            rw [hcong]
            by_cases hab : a = bus
            · subst hab
              simp only [Nat.sub_self, List.getElem?_cons_zero, beq_self_eq_true, if_true, Function.comp, decide_true,
                List.map_cons]
              congr 1
              exact ih (o + 1)
            · have h1 : ((some a : Option Nat) == some bus) = false := by simpa using hab
              simp only [Nat.sub_self, List.getElem?_cons_zero, h1, Bool.false_eq_true, if_false, Function.comp,
                Prod.mk.injEq, hab, false_and, decide_false]
              exact ih (o + 1)
        have k0 := key T.shuntBus 0
        unfold shuntsOf
        rw [List.range_eq_range']
        simpa using k0
      · intro x hx
        rw [List.mem_map] at hx
        obtain ⟨s, hs, rfl⟩ := hx
        have := hv.shuntRange s.1 (List.mem_of_getElem? (List.mem_zipIdx_iff_getElem?.mp hs))
        simpa using this
    rw [((hperm.filter _).map F).sum_eq]
    generalize T.shuntBus.zipIdx = l
    induction l with
    | nil => rfl
    | cons s l ih =>
      rw [List.map_cons, List.map_cons, List.sum_cons, List.filter_cons]
      split_ifs with h
      · rw [List.map_cons, List.sum_cons, ih]
      · rw [ih, zero_add]

theorem sum_filter_cons {A V : Type} [AddCommMonoid V] (q : A → Bool) (F : A → V) (a : A) (l : List A) :
    (((a :: l).filter q).map F).sum = (if q a then F a else 0) + ((l.filter q).map F).sum := by
  rw [List.filter_cons]
  split_ifs <;> simp

theorem entryValue_eq {T : Topo} (hv : T.Valid) {S : Structure} (hS : build T = some S) (P : Param Y) {r c k : Nat}
    (hk : EntryAt S.rowIndptr S.colIndices r c k) :
    entryValue S P k = (((collect T).filter fun x => decide (x.pos = (r, c))).map fun x => contribution P x.el).sum := by
  unfold entryValue
  rw [(entry_elements hv hS hk).2, foldl_add, zero_add, List.map_map]
  rfl

/-! ## Properties: values -/

/-- Every entry of the admittance matrix is the sum of the contributions of all branches and shunts, each exactly once. -/
theorem entry_is_nodal {T : Topo} (hv : T.Valid) {S : Structure} (hS : build T = some S) (P : Param Y) {r c k : Nat}
    (hk : EntryAt S.rowIndptr S.colIndices r c k) : entryValue S P k = nodal T P r c := by
  rw [entryValue_eq hv hS P hk, sum_collect T hv (fun p => decide (p = (r, c)))
    (fun x => contribution P x.el) (fun x hx => by
      obtain ⟨_, ⟨ty, i⟩⟩ := x
      cases ty <;> simp [ElType.isFill] at hx <;> rfl)]
  unfold nodal
  congr 1
  · congr 1
    apply List.map_congr_left
    rintro ⟨⟨f, t⟩, k⟩ _
    unfold branchElems branchTerm
    rcases f with _ | f <;> rcases t with _ | t
    all_goals
      simp only [appendElem, List.append_nil, List.nil_append, List.cons_append, sum_filter_cons, List.filter_nil,
        List.map_nil, List.sum_nil, add_zero, contribution, decide_eq_true_eq, Prod.mk.injEq, Option.some.injEq,
        reduceCtorEq, false_and, and_false, if_false, zero_add, add_assoc]
  · congr 1
    apply List.map_congr_left
    intro s _
    simp [contribution]

/-! ## Updates -/

theorem updateEntries_spec (S : Structure) (y : YBus Y) (es : List Nat) :
    (updateEntries S y es).param = y.param ∧ (updateEntries S y es).perBranch = y.perBranch ∧
    (updateEntries S y es).perShunt = y.perShunt ∧ (updateEntries S y es).admittance.length = y.admittance.length ∧
    ∀ k, k < y.admittance.length → (updateEntries S y es).admittance[k]? =
      if k ∈ es then some (entryValue S y.param k) else y.admittance[k]? := by
  unfold updateEntries
  induction es generalizing y with
  | nil => simp
  | cons e es ih =>
    rw [List.foldl_cons]
    obtain ⟨i1, i2, i3, i4, i5⟩ := ih { y with admittance := y.admittance.set e (entryValue S y.param e) }
    refine ⟨i1, i2, i3, by rw [i4]; simp, fun k hk => ?_⟩
    rw [i5 k (by simpa using hk)]
    simp only [List.mem_cons]
    by_cases h1 : k ∈ es
    · rw [if_pos h1, if_pos (Or.inr h1)]
    · rw [if_neg h1]
      by_cases h2 : e = k
      · subst h2
        rw [List.getElem?_set_self hk, if_pos (Or.inl rfl)]
      · rw [List.getElem?_set_ne h2, if_neg]
        rintro (h | h)
        · exact h2 h.symm
        · exact h1 h

/-- The entries registered for every component. -/
theorem register_mem (S : Structure) (y : YBus Y) (k : Nat) (hk : k < S.nnz) (e : Elem) (he : e ∈ elementsOf S k) :
    (e.type = .shunt → k ∈ (register S y).perShunt e.idx) ∧ (e.type ≠ .shunt → k ∈ (register S y).perBranch e.idx) := by
  unfold register
  simp only
  -- one entry
  have inner : ∀ (entry : Nat) (es : List Elem) (s : (Nat → List Nat) × (Nat → List Nat)),
      (∀ i x, x ∈ s.1 i → x ∈ (es.foldl (registerElem entry) s).1 i) ∧
      (∀ i x, x ∈ s.2 i → x ∈ (es.foldl (registerElem entry) s).2 i) ∧
      ∀ e ∈ es, (e.type = .shunt → entry ∈ (es.foldl (registerElem entry) s).2 e.idx) ∧
        (e.type ≠ .shunt → entry ∈ (es.foldl (registerElem entry) s).1 e.idx) := by
    intro entry es
    induction es with
    | nil => intro s; exact ⟨fun _ _ h => h, fun _ _ h => h, fun e he => by simp at he⟩
    | cons a es ih =>
      intro s
      rw [List.foldl_cons]
      obtain ⟨i1, i2, i3⟩ := ih (registerElem entry s a)
      have k1 : ∀ i x, x ∈ s.1 i → x ∈ (registerElem entry s a).1 i := by
        intro i x hx
        unfold registerElem
        split_ifs
        · exact hx
        · simp only [Function.update_apply]
          split_ifs with h
          · subst h; simp [hx]
          · exact hx
      have k2 : ∀ i x, x ∈ s.2 i → x ∈ (registerElem entry s a).2 i := by
        intro i x hx
        unfold registerElem
        split_ifs
        · simp only [Function.update_apply]
          split_ifs with h
          · subst h; simp [hx]
          · exact hx
        · exact hx
      refine ⟨fun i x h => i1 i x (k1 i x h), fun i x h => i2 i x (k2 i x h), fun e he => ?_⟩
      rw [List.mem_cons] at he
      rcases he with rfl | he
      · constructor
        · intro h
          apply i2
          simp [registerElem, h]
        · intro h
          apply i1
          simp [registerElem, h]
      · exact i3 e he
  have outer : ∀ (ks : List Nat) (s : (Nat → List Nat) × (Nat → List Nat)),
      (∀ i x, x ∈ s.1 i → x ∈ (ks.foldl (fun s entry => (elementsOf S entry).foldl (registerElem entry) s) s).1 i) ∧
      (∀ i x, x ∈ s.2 i → x ∈ (ks.foldl (fun s entry => (elementsOf S entry).foldl (registerElem entry) s) s).2 i) ∧
      ∀ k ∈ ks, ∀ e ∈ elementsOf S k,
        (e.type = .shunt → k ∈ (ks.foldl (fun s entry => (elementsOf S entry).foldl (registerElem entry) s) s).2 e.idx) ∧
        (e.type ≠ .shunt → k ∈ (ks.foldl (fun s entry => (elementsOf S entry).foldl (registerElem entry) s) s).1 e.idx) := by
    intro ks
    induction ks with
    | nil => intro s; exact ⟨fun _ _ h => h, fun _ _ h => h, fun e he => by simp at he⟩
    | cons a ks ih =>
      intro s
      rw [List.foldl_cons]
      obtain ⟨i1, i2, i3⟩ := ih ((elementsOf S a).foldl (registerElem a) s)
      obtain ⟨j1, j2, j3⟩ := inner a (elementsOf S a) s
      refine ⟨fun i x h => i1 i x (j1 i x h), fun i x h => i2 i x (j2 i x h), fun k hk e he => ?_⟩
      rw [List.mem_cons] at hk
      rcases hk with rfl | hk
      · exact ⟨fun h => i2 _ _ ((j3 e he).1 h), fun h => i1 _ _ ((j3 e he).2 h)⟩
      · exact i3 k hk e he
  exact (outer (List.range S.nnz) _).2.2 k (List.mem_range.mpr hk) e he

/-- The stored values belong to the stored parameters, and the registered entries are complete. -/
structure Coherent (S : Structure) (y : YBus Y) : Prop where
  len : y.admittance.length = S.nnz
  value : ∀ k, k < S.nnz → y.admittance[k]? = some (entryValue S y.param k)
  registered : ∀ k, k < S.nnz → ∀ e ∈ elementsOf S k,
    (e.type = .shunt → k ∈ y.perShunt e.idx) ∧ (e.type ≠ .shunt → k ∈ y.perBranch e.idx)

theorem coherent_updateAdmittance (S : Structure) (y : YBus Y) (P : Param Y) :
    Coherent S (updateAdmittance S y P) ∧ (updateAdmittance S y P).param = P := by
  have hreg : ∀ z : YBus Y, (register S z).admittance = z.admittance ∧ (register S z).param = z.param := fun z => ⟨rfl, rfl⟩
  unfold updateAdmittance
  simp only
  set y1 : YBus Y := { y with param := P } with hy1
  set y2 := (if y1.admittance.length ≠ S.nnz then { y1 with admittance := List.replicate S.nnz 0 } else y1) with hy2
  have hlen : y2.admittance.length = S.nnz := by
    rw [hy2]
    split_ifs with h
    · simp
    · push Not at h; exact h
  have hpar : y2.param = P := by rw [hy2]; split_ifs <;> rfl
  obtain ⟨u1, u2, u3, u4, u5⟩ := updateEntries_spec S (register S y2) (List.range S.nnz)
  rw [(hreg y2).2, hpar] at u1
  refine ⟨⟨by rw [u4, (hreg y2).1, hlen], fun k hk => ?_, fun k hk e he => ?_⟩, u1⟩
  · rw [u5 k (by rw [(hreg y2).1, hlen]; exact hk), if_pos (List.mem_range.mpr hk), u1, (hreg y2).2, hpar]
  · rw [u2, u3]
    exact register_mem S y2 k hk e he

theorem mem_unique (l : List Nat) (k : Nat) : k ∈ unique l ↔ k ∈ l := by
  induction l with
  | nil => simp [unique]
  | cons a l ih =>
    unfold unique
    cases hu : unique l with
    | nil =>
      rw [hu] at ih
      simp only [List.mem_cons, List.not_mem_nil, or_false]
      rw [← ih]; simp
    | cons b r =>
      rw [hu] at ih
      simp only
      split_ifs with h
      · subst h
        rw [ih, List.mem_cons]
        constructor
        · exact Or.inr
        · rintro (rfl | h)
          · exact ih.mp (by simp)
          · exact h
      · rw [List.mem_cons, ih, List.mem_cons]

/-- The parameters after an increment: the last value given for a component, or the old one. -/
theorem increment_params (y : YBus Y) (S : Structure) (inc : Increment Y) (i : Nat) :
    (updateIncrement S y inc).param.shunt i =
      (((inc.shunt.filter fun s => s.1 = i).getLast?).map (·.2)).getD (y.param.shunt i) ∧
    (∀ v, (inc.branch.filter fun b => b.1 = i).getLast? = some (i, v) →
      (updateIncrement S y inc).param.ff i = v.ff ∧ (updateIncrement S y inc).param.ft i = v.ft ∧
      (updateIncrement S y inc).param.tf i = v.tf ∧ (updateIncrement S y inc).param.tt i = v.tt) ∧
    ((∀ b ∈ inc.branch, b.1 ≠ i) →
      (updateIncrement S y inc).param.ff i = y.param.ff i ∧ (updateIncrement S y inc).param.ft i = y.param.ft i ∧
      (updateIncrement S y inc).param.tf i = y.param.tf i ∧ (updateIncrement S y inc).param.tt i = y.param.tt i) := by
  have hp : (updateIncrement S y inc).param = inc.shunt.foldl setShunt (inc.branch.foldl setBranch y.param) := by
    unfold updateIncrement
    simp only
    rw [(updateEntries_spec S _ _).1]
  rw [hp]
  have shB : ∀ (l : List (Nat × Y)) (P : Param Y), (l.foldl setShunt P).ff = P.ff ∧ (l.foldl setShunt P).ft = P.ft ∧
      (l.foldl setShunt P).tf = P.tf ∧ (l.foldl setShunt P).tt = P.tt := by
    intro l
    induction l with
    | nil => intro P; exact ⟨rfl, rfl, rfl, rfl⟩
    | cons s l ih => intro P; rw [List.foldl_cons]; exact ih (setShunt P s)
  have brS : ∀ (l : List (Nat × BranchParam Y)) (P : Param Y), (l.foldl setBranch P).shunt = P.shunt := by
    intro l
    induction l with
    | nil => intro P; rfl
    | cons s l ih => intro P; rw [List.foldl_cons]; exact ih (setBranch P s)
  have shS : ∀ (l : List (Nat × Y)) (P : Param Y), (l.foldl setShunt P).shunt i =
      (((l.filter fun s => s.1 = i).getLast?).map (·.2)).getD (P.shunt i) := by
    intro l
    induction l with
    | nil => intro P; rfl
    | cons s l ih =>
      intro P
      rw [List.foldl_cons, ih, List.filter_cons]
      by_cases h : s.1 = i
      · rw [if_pos (by simpa using h), List.getLast?_cons]
        cases hl : (l.filter fun s => decide (s.1 = i)).getLast? with
        | none => simp [setShunt, h]
        | some x => simp
      · rw [if_neg (by simpa using h)]
        have : (setShunt P s).shunt i = P.shunt i := by
          simp only [setShunt, Function.update_apply]
          rw [if_neg (fun e => h e.symm)]
        rw [this]
  have brB : ∀ (l : List (Nat × BranchParam Y)) (P : Param Y),
      ((∀ b ∈ l, b.1 ≠ i) → (l.foldl setBranch P).ff i = P.ff i ∧ (l.foldl setBranch P).ft i = P.ft i ∧
        (l.foldl setBranch P).tf i = P.tf i ∧ (l.foldl setBranch P).tt i = P.tt i) ∧
      (∀ v, (l.filter fun b => b.1 = i).getLast? = some (i, v) → (l.foldl setBranch P).ff i = v.ff ∧
        (l.foldl setBranch P).ft i = v.ft ∧ (l.foldl setBranch P).tf i = v.tf ∧ (l.foldl setBranch P).tt i = v.tt) := by
    intro l
    induction l with
    | nil => intro P; exact ⟨fun _ => ⟨rfl, rfl, rfl, rfl⟩, fun v h => by simp at h⟩
    | cons b l ih =>
      intro P
      rw [List.foldl_cons]
      obtain ⟨i1, i2⟩ := ih (setBranch P b)
      constructor
      · intro h
        obtain ⟨j1, j2, j3, j4⟩ := i1 (fun b hb => h b (by simp [hb]))
        have hne : i ≠ b.1 := fun e => h b (by simp) e.symm
        rw [j1, j2, j3, j4]
        simp [setBranch, Function.update_apply, hne]
      · intro v hl
        rw [List.filter_cons] at hl
        by_cases h : b.1 = i
        · rw [if_pos (by simpa using h), List.getLast?_cons] at hl
          cases hl2 : (l.filter fun b => decide (b.1 = i)).getLast? with
          | none =>
            rw [hl2] at hl
            simp only [Option.getD_none, Option.some.injEq] at hl
            have hno : ∀ b' ∈ l, b'.1 ≠ i := by
              rw [List.getLast?_eq_none_iff, List.filter_eq_nil_iff] at hl2
              intro b' hb'
              simpa using hl2 b' hb'
            obtain ⟨j1, j2, j3, j4⟩ := i1 hno
            rw [j1, j2, j3, j4, hl]
            simp [setBranch]
          | some x =>
            rw [hl2] at hl
            simp only [Option.getD_some, Option.some.injEq] at hl
            exact i2 v (by rw [hl2, hl])
        · rw [if_neg (by simpa using h)] at hl
          exact i2 v hl
  refine ⟨by rw [shS, brS], fun v h => ?_, fun h => ?_⟩
  · obtain ⟨a, b, c, d⟩ := shB inc.shunt (inc.branch.foldl setBranch y.param)
    rw [a, b, c, d]
    exact (brB inc.branch y.param).2 v h
  · obtain ⟨a, b, c, d⟩ := shB inc.shunt (inc.branch.foldl setBranch y.param)
    rw [a, b, c, d]
    exact (brB inc.branch y.param).1 h

theorem coherent_increment {S : Structure} {y : YBus Y} (h : Coherent S y)
    (inc : Increment Y) : Coherent S (updateIncrement S y inc) := by
  have hpar := fun i => increment_params y S inc i
  unfold updateIncrement at *
  simp only at *
  set P := inc.shunt.foldl setShunt (inc.branch.foldl setBranch y.param) with hP
  set y1 : YBus Y := { y with param := P } with hy1
  obtain ⟨u1, u2, u3, u4, u5⟩ := updateEntries_spec S y1 (affected y1 inc)
  refine ⟨by rw [u4]; exact h.len, fun k hk => ?_, fun k hk e he => ?_⟩
  · rw [u5 k (by rw [show y1.admittance = y.admittance from rfl, h.len]; exact hk), u1]
    split_ifs with hm
    · rfl
    · rw [show y1.admittance = y.admittance from rfl, h.value k hk]
      congr 1
      unfold entryValue
      rw [foldl_add, foldl_add]
      congr 2
      apply List.map_congr_left
      intro e he
      have hm' : k ∉ (inc.branch.map (·.1)).flatMap y.perBranch ++ (inc.shunt.map (·.1)).flatMap y.perShunt := by
        intro hc
        apply hm
        unfold affected
        rw [mem_unique]
        exact (List.mergeSort_perm _ _).mem_iff.mpr hc
      rw [List.mem_append, not_or] at hm'
      obtain ⟨r1, r2⟩ := h.registered k hk e he
      unfold contribution
      obtain ⟨p1, p2, p3⟩ := hpar e.idx
      rw [u1] at p1 p3
      have hy1p : y1.param = P := rfl
      rw [hy1p] at p1 p3 ⊢
      by_cases hsh : e.type = .shunt
      · rw [hsh]
        simp only
        rw [p1]
        have : (inc.shunt.filter fun s => decide (s.1 = e.idx)) = [] := by
          rw [List.filter_eq_nil_iff]
          intro s hs hse
          apply hm'.2
          rw [List.mem_flatMap]
          have hse : s.1 = e.idx := by simpa using hse
          exact ⟨e.idx, List.mem_map.mpr ⟨s, hs, hse⟩, r1 hsh⟩
        rw [this]; rfl
      · have hno : ∀ b ∈ inc.branch, b.1 ≠ e.idx := by
          intro b hb hbe
          apply hm'.1
          rw [List.mem_flatMap]
          exact ⟨e.idx, List.mem_map.mpr ⟨b, hb, hbe⟩, r2 hsh⟩
        obtain ⟨q1, q2, q3, q4⟩ := p3 hno
        cases hty : e.type with
        | shunt => exact absurd hty hsh
        | ff => simp only [q1]
        | ft => simp only [q2]
        | tf => simp only [q3]
        | tt => simp only [q4]
        | fillFt => rfl
        | fillTf => rfl
  · rw [u2, u3]
    exact h.registered k hk e he

/-- Whatever the history, the matrix is coherent. -/
theorem coherent_history (S : Structure) (y0 : YBus Y) (P : Param Y) (incs : List (Increment Y)) :
    Coherent S (incs.foldl (updateIncrement S) (updateAdmittance S y0 P)) := by
  have hcoh : ∀ (incs : List (Increment Y)) (y : YBus Y), Coherent S y →
      Coherent S (incs.foldl (updateIncrement S) y) := by
    intro incs
    induction incs with
    | nil => intro y h; exact h
    | cons inc incs ih => intro y h; rw [List.foldl_cons]; exact ih _ (coherent_increment h inc)
  exact hcoh incs _ (coherent_updateAdmittance S y0 P).1

/-! ## Properties: the matrix -/

/-- After a full update and any number of incremental updates, the matrix is the nodal admittance matrix of the stored
parameters. -/
theorem matrix_is_nodal {T : Topo} (hv : T.Valid) {S : Structure} (hS : build T = some S) (y0 : YBus Y) (P : Param Y)
    (incs : List (Increment Y)) (r c k : Nat) (hk : EntryAt S.rowIndptr S.colIndices r c k) :
    let y := incs.foldl (updateIncrement S) (updateAdmittance S y0 P)
    y.admittance[k]? = some (nodal T y.param r c) := by
  simp only
  have hc := coherent_history S y0 P incs
  rw [hc.value k (entry_elements hv hS hk).1, entry_is_nodal hv hS _ hk]

/-- Incremental updates give the same matrix as a full update with the resulting parameters, whatever was stored before. -/
theorem increment_equals_rebuild (S : Structure) (y0 y1 : YBus Y) (P : Param Y) (incs : List (Increment Y)) :
    let y := incs.foldl (updateIncrement S) (updateAdmittance S y0 P)
    y.admittance = (updateAdmittance S y1 y.param).admittance := by
  simp only
  have hc := coherent_history S y0 P incs
  set y := incs.foldl (updateIncrement S) (updateAdmittance S y0 P) with hy
  obtain ⟨hd, hp⟩ := coherent_updateAdmittance S y1 y.param
  apply List.ext_getElem?
  intro k
  by_cases hk : k < S.nnz
  · rw [hc.value k hk, hd.value k hk, hp]
  · rw [List.getElem?_eq_none (by rw [hc.len]; omega), List.getElem?_eq_none (by rw [hd.len]; omega)]

end PGM.YBus
