import Verif.YBus.Lemmas

/-!
# The admittance matrix: properties (C14, C15)
-/

namespace PGM.YBus

/-! ## Specification -/

/-- A branch that connects two buses. -/
def Connects (b : Option Nat × Option Nat) (r c : Nat) : Prop := b = (some r, some c) ∨ b = (some c, some r)

/-- An island as the topology builds it: indices in range, fill-ins only where nothing is connected and only once, and every bus
has a branch or a shunt, or there is a single bus with neither. -/
structure Topo.Valid (T : Topo) : Prop where
  nonempty : 0 < T.nBus
  branchRange : ∀ b ∈ T.branches, (∀ f, b.1 = some f → f < T.nBus) ∧ (∀ t, b.2 = some t → t < T.nBus)
  shuntRange : ∀ s ∈ T.shuntBus, s < T.nBus
  fillRange : ∀ f ∈ T.fillIn, f.1 < T.nBus ∧ f.2 < T.nBus
  fillOff : ∀ f ∈ T.fillIn, f.1 ≠ f.2
  fillNew : ∀ f ∈ T.fillIn, ∀ b ∈ T.branches, ¬ Connects b f.1 f.2
  fillOnce : T.fillIn.Pairwise fun f g => f ≠ g ∧ f ≠ (g.2, g.1)
  covered : (T.branches = [] ∧ T.shuntBus = [] ∧ T.nBus = 1) ∨
    ∀ r, r < T.nBus → (∃ b ∈ T.branches, b.1 = some r ∨ b.2 = some r) ∨ r ∈ T.shuntBus

/-- The pattern of the admittance matrix: the diagonal, and the pairs of buses that a branch connects. -/
def InY (T : Topo) (r c : Nat) : Prop := r = c ∨ ∃ b ∈ T.branches, Connects b r c

/-- The pattern of the factorised matrix. -/
def InLu (T : Topo) (r c : Nat) : Prop := InY T r c ∨ (r, c) ∈ T.fillIn ∨ (c, r) ∈ T.fillIn

/-- A matrix with `n` rows in compressed row storage, with strictly increasing columns in each row and the given pattern. -/
structure IsCsr (n : Nat) (indptr cols : List Nat) (pattern : Nat → Nat → Prop) : Prop where
  len : indptr.length = n + 1
  first : indptr[0]? = some 0
  last : indptr[n]? = some cols.length
  mono : ∀ r, r < n → ∃ a z, indptr[r]? = some a ∧ indptr[r + 1]? = some z ∧ a ≤ z
  sorted : ∀ r c k c' k', EntryAt indptr cols r c k → EntryAt indptr cols r c' k' → k < k' → c < c'
  pattern : ∀ r, r < n → ∀ c, (∃ k, EntryAt indptr cols r c k) ↔ pattern r c

variable {Y : Type} [AddCommMonoid Y]

/-- What a branch contributes to the entry `(r, c)`. -/
def branchTerm (P : Param Y) (r c : Nat) (b : (Option Nat × Option Nat) × Nat) : Y :=
  (if b.1.1 = some r ∧ b.1.1 = some c then P.ff b.2 else 0) + (if b.1.1 = some r ∧ b.1.2 = some c then P.ft b.2 else 0) +
  (if b.1.2 = some r ∧ b.1.1 = some c then P.tf b.2 else 0) + (if b.1.2 = some r ∧ b.1.2 = some c then P.tt b.2 else 0)

/-- The nodal admittance matrix: every branch and every shunt contributes once. -/
def nodal (T : Topo) (P : Param Y) (r c : Nat) : Y :=
  (T.branches.zipIdx.map (branchTerm P r c)).sum +
  (T.shuntBus.zipIdx.map fun s => if s.1 = r ∧ s.1 = c then P.shunt s.2 else 0).sum

/-! ## From the specification to the loop -/

theorem isL_iff {T : Topo} {p : Pos} : isL T p = true ↔ ∃ x ∈ collect T, x.pos = p := by
  unfold isL at_
  rw [Bool.not_eq_true', List.isEmpty_eq_false_iff_exists_mem]
  constructor
  · rintro ⟨x, hx⟩
    rw [List.mem_filter] at hx
    exact ⟨x, hx.1, by simpa using hx.2⟩
  · rintro ⟨x, hx, h⟩
    exact ⟨x, List.mem_filter.mpr ⟨hx, by simpa using h⟩⟩

theorem isY_iff {T : Topo} (hf : FillAlone T) {p : Pos} :
    isY T p = true ↔ ∃ x ∈ collect T, x.pos = p ∧ x.el.type.isFill = false := by
  unfold isY
  cases hp : at_ T p with
  | nil =>
    simp only [Bool.false_eq_true, false_iff, not_exists, not_and]
    intro x hx he
    have : x ∈ at_ T p := List.mem_filter.mpr ⟨hx, by simpa using he⟩
    rw [hp] at this; simp at this
  | cons e es =>
    have hm : e ∈ at_ T p := by simp [hp]
    have hme := List.mem_filter.mp hm
    simp only [Bool.not_eq_true']
    constructor
    · intro h
      exact ⟨e, hme.1, by simpa using hme.2, h⟩
    · rintro ⟨x, hx, he, hnf⟩
      by_contra hc
      have hfe : e.el.type.isFill = true := by simpa using hc
      have := hf p e hm hfe
      have hxm : x ∈ at_ T p := List.mem_filter.mpr ⟨hx, by simpa using he⟩
      rw [this, List.mem_singleton] at hxm
      rw [hxm, hfe] at hnf
      simp at hnf

theorem fillAlone_of_valid {T : Topo} (hv : T.Valid) : FillAlone T := by
  intro p x hx hfill
  obtain ⟨hm, hp⟩ := List.mem_filter.mp hx
  have hp : x.pos = p := by simpa using hp
  -- the fill-in
  have hex : ∃ f k, T.fillIn[k]? = some f ∧ x ∈ fillElems (f, k) := by
    rw [mem_collect] at hm
    rcases hm with ⟨b, k, _, h⟩ | ⟨b, k, _, _, rfl⟩ | h
    · rw [mem_branchElems] at h
      rcases h with ⟨_, _, rfl⟩ | ⟨_, _, _, _, rfl⟩ | ⟨_, _, _, _, rfl⟩ | ⟨_, _, rfl⟩ <;> simp [ElType.isFill] at hfill
    · simp [ElType.isFill] at hfill
    · exact h
  obtain ⟨f, k, hfk, hxf⟩ := hex
  have hfm : f ∈ T.fillIn := List.mem_of_getElem? hfk
  have hoff := hv.fillOff f hfm
  have hpf : p = (f.1, f.2) ∨ p = (f.2, f.1) := by
    simp only [fillElems, List.mem_cons, List.not_mem_nil, or_false] at hxf
    rcases hxf with rfl | rfl
    · exact Or.inl hp.symm
    · exact Or.inr hp.symm
  have hpd : p.1 ≠ p.2 := by rcases hpf with rfl | rfl <;> simp only <;> omega
  unfold at_
  rw [collect_eq]
  simp only [List.filter_append]
  have h1 : (T.branches.zipIdx.flatMap branchElems).filter (fun x => decide (x.pos = p)) = [] := by
    rw [List.filter_eq_nil_iff]
    intro y hy
    rw [List.mem_flatMap] at hy
    obtain ⟨b, hb, hy⟩ := hy
    have hb := List.mem_of_getElem? (List.mem_zipIdx_iff_getElem?.mp hb)
    have hnc := hv.fillNew f hfm b.1 hb
    rw [mem_branchElems] at hy
    simp only [decide_eq_true_eq]
    intro hyp
    unfold Connects at hnc
    rcases hy with ⟨_, _, rfl⟩ | ⟨f', t', e1, e2, rfl⟩ | ⟨f', t', e1, e2, rfl⟩ | ⟨_, _, rfl⟩
    · exact hpd (by rw [← hyp])
    · apply hnc
      have : b.1 = (some f', some t') := Prod.ext e1 e2
      rw [this]
      simp only at hyp
      rcases hpf with hpf | hpf <;> rw [hpf] at hyp <;> simp only [Prod.mk.injEq] at hyp <;> simp [hyp]
    · apply hnc
      have : b.1 = (some f', some t') := Prod.ext e1 e2
      rw [this]
      simp only at hyp
      rcases hpf with hpf | hpf <;> rw [hpf] at hyp <;> simp only [Prod.mk.injEq] at hyp <;> simp [hyp]
    · exact hpd (by rw [← hyp])
  have h2 : ((List.range T.nBus).flatMap fun bus => (shuntsOf T bus).map fun k =>
      (⟨(bus, bus), ⟨.shunt, k⟩⟩ : ElemMap)).filter (fun x => decide (x.pos = p)) = [] := by
    rw [List.filter_eq_nil_iff]
    intro y hy
    rw [List.mem_flatMap] at hy
    obtain ⟨bus, _, hy⟩ := hy
    rw [List.mem_map] at hy
    obtain ⟨k, _, rfl⟩ := hy
    simp only [decide_eq_true_eq]
    intro hyp
    exact hpd (by rw [← hyp])
  rw [h1, h2, List.nil_append, List.nil_append, List.filter_flatMap]
  have hxk : (fillElems (f, k)).filter (fun x => decide (x.pos = p)) = [x] := by
    have hoff' : ¬ f.2 = f.1 := fun e => hoff e.symm
    simp only [fillElems, List.mem_cons, List.not_mem_nil, or_false] at hxf ⊢
    rcases hxf with rfl | rfl
    · simp only at hp
      simp [List.filter_cons, ← hp, hoff, hoff']
    · simp only at hp
      simp [List.filter_cons, ← hp, hoff, hoff']
  rw [← hxk]
  refine flatMap_unique ?_ (List.mem_zipIdx_iff_getElem?.mpr hfk) (by rw [hxk]; simp)
  have hz : (T.fillIn.zipIdx.map (·.1)).Pairwise fun f g => f ≠ g ∧ f ≠ (g.2, g.1) := by
    rw [List.zipIdx_map_fst]; exact hv.fillOnce
  rw [List.pairwise_map] at hz
  refine hz.imp ?_
  rintro ⟨⟨a1, a2⟩, i⟩ ⟨⟨b1, b2⟩, j⟩ ⟨n1, n2⟩
  by_contra hcon
  push Not at hcon
  obtain ⟨c1, c2⟩ := hcon
  simp only [ne_eq, List.filter_eq_nil_iff, not_forall] at c1 c2
  obtain ⟨y, hy, hy'⟩ := c1
  obtain ⟨z, hz', hz''⟩ := c2
  simp only [fillElems, List.mem_cons, List.not_mem_nil, or_false] at hy hz'
  simp only [decide_eq_true_eq, not_not] at hy' hz''
  simp only [ne_eq, Prod.mk.injEq] at n1 n2
  rcases hy with rfl | rfl <;> rcases hz' with rfl | rfl <;> simp only at hy' hz'' <;> rw [← hz''] at hy' <;>
    simp only [Prod.mk.injEq] at hy' <;> tauto

theorem range_of_valid {T : Topo} (hv : T.Valid) : ∀ x ∈ collect T, x.pos.1 < T.nBus ∧ x.pos.2 < T.nBus := by
  intro x hx
  rw [mem_collect] at hx
  rcases hx with ⟨b, k, hb, h⟩ | ⟨b, k, hb, _, rfl⟩ | ⟨f, k, hf, h⟩
  · obtain ⟨r1, r2⟩ := hv.branchRange b (List.mem_of_getElem? hb)
    rw [mem_branchElems] at h
    rcases h with ⟨_, e1, rfl⟩ | ⟨_, _, e1, e2, rfl⟩ | ⟨_, _, e1, e2, rfl⟩ | ⟨_, e1, rfl⟩
    · exact ⟨r1 _ e1, r1 _ e1⟩
    · exact ⟨r1 _ e1, r2 _ e2⟩
    · exact ⟨r2 _ e2, r1 _ e1⟩
    · exact ⟨r2 _ e1, r2 _ e1⟩
  · exact ⟨hb, hb⟩
  · obtain ⟨r1, r2⟩ := hv.fillRange f (List.mem_of_getElem? hf)
    simp only [fillElems, List.mem_cons, List.not_mem_nil, or_false] at h
    rcases h with rfl | rfl
    · exact ⟨r1, r2⟩
    · exact ⟨r2, r1⟩

/-- Where a branch or shunt contributes. -/
theorem contributes_iff {T : Topo} (hv : T.Valid) {r c : Nat} :
    (∃ x ∈ collect T, x.pos = (r, c) ∧ x.el.type.isFill = false) ↔
      (r = c ∧ ((∃ b ∈ T.branches, b.1 = some r ∨ b.2 = some r) ∨ r ∈ T.shuntBus)) ∨ ∃ b ∈ T.branches, Connects b r c := by
  constructor
  · rintro ⟨x, hx, hp, hf⟩
    rw [mem_collect] at hx
    rcases hx with ⟨b, k, hb, h⟩ | ⟨b, k, hb, hk, rfl⟩ | ⟨f, k, _, h⟩
    · have hb := List.mem_of_getElem? hb
      rw [mem_branchElems] at h
      rcases h with ⟨f, e1, rfl⟩ | ⟨f, t, e1, e2, rfl⟩ | ⟨f, t, e1, e2, rfl⟩ | ⟨t, e1, rfl⟩ <;>
        simp only [Prod.mk.injEq] at hp
      · exact Or.inl ⟨hp.1.symm.trans hp.2, Or.inl ⟨b, hb, Or.inl (by rw [e1, hp.1])⟩⟩
      · exact Or.inr ⟨b, hb, Or.inl (Prod.ext (by rw [e1, hp.1]) (by rw [e2, hp.2]))⟩
      · exact Or.inr ⟨b, hb, Or.inr (Prod.ext (by rw [e1, hp.2]) (by rw [e2, hp.1]))⟩
      · exact Or.inl ⟨hp.1.symm.trans hp.2, Or.inl ⟨b, hb, Or.inr (by rw [e1, hp.1])⟩⟩
    · simp only [Prod.mk.injEq] at hp
      exact Or.inl ⟨hp.1.symm.trans hp.2, Or.inr (by rw [← hp.1]; exact List.mem_of_getElem? hk)⟩
    · simp only [fillElems, List.mem_cons, List.not_mem_nil, or_false] at h
      rcases h with rfl | rfl <;> simp [ElType.isFill] at hf
  · rintro (⟨rfl, ⟨b, hb, h⟩ | h⟩ | ⟨b, hb, h⟩)
    · obtain ⟨k, hk⟩ := List.mem_iff_getElem?.mp hb
      rcases h with h | h
      · exact ⟨_, mem_collect.mpr (Or.inl ⟨b, k, hk, mem_branchElems.mpr (Or.inl ⟨r, h, rfl⟩)⟩), rfl, rfl⟩
      · exact ⟨_, mem_collect.mpr (Or.inl ⟨b, k, hk, mem_branchElems.mpr (Or.inr (Or.inr (Or.inr ⟨r, h, rfl⟩)))⟩), rfl, rfl⟩
    · obtain ⟨k, hk⟩ := List.mem_iff_getElem?.mp h
      exact ⟨_, mem_collect.mpr (Or.inr (Or.inl ⟨r, k, hv.shuntRange r h, hk, rfl⟩)), rfl, rfl⟩
    · obtain ⟨k, hk⟩ := List.mem_iff_getElem?.mp hb
      rcases h with rfl | rfl
      · exact ⟨_, mem_collect.mpr (Or.inl ⟨_, k, hk, mem_branchElems.mpr (Or.inr (Or.inl ⟨r, c, rfl, rfl, rfl⟩))⟩), rfl, rfl⟩
      · exact ⟨_, mem_collect.mpr (Or.inl ⟨_, k, hk, mem_branchElems.mpr (Or.inr (Or.inr (Or.inl ⟨c, r, rfl, rfl, rfl⟩)))⟩),
          rfl, rfl⟩

/-- Unless the island is a single bus with nothing on it, the loop has what it needs. -/
theorem good_of_valid {T : Topo} (hv : T.Valid)
    (hc : ∀ r, r < T.nBus → (∃ b ∈ T.branches, b.1 = some r ∨ b.2 = some r) ∨ r ∈ T.shuntBus) : Good T where
  pos := Nat.pos_iff_ne_zero.mp hv.nonempty
  range := range_of_valid hv
  alone := fillAlone_of_valid hv
  cover := fun r hr => (isY_iff (fillAlone_of_valid hv)).mpr ((contributes_iff hv).mpr (Or.inl ⟨rfl, hc r hr⟩))

theorem mem_yPos_iff {T : Topo} (hv : T.Valid)
    (hc : ∀ r, r < T.nBus → (∃ b ∈ T.branches, b.1 = some r ∨ b.2 = some r) ∨ r ∈ T.shuntBus) {r c : Nat} (hr : r < T.nBus) :
    (r, c) ∈ yPos T (positions T.nBus) ↔ InY T r c := by
  rw [mem_yPos, isY_iff (fillAlone_of_valid hv), contributes_iff hv]
  unfold InY
  constructor
  · rintro ⟨_, _, ⟨h, _⟩ | h⟩
    · exact Or.inl h
    · exact Or.inr h
  · rintro (rfl | h)
    · exact ⟨hr, hr, Or.inl ⟨rfl, hc r hr⟩⟩
    · refine ⟨hr, ?_, Or.inr h⟩
      obtain ⟨b, hb, h⟩ := h
      obtain ⟨r1, r2⟩ := hv.branchRange b hb
      rcases h with rfl | rfl
      · exact r2 c rfl
      · exact r1 c rfl

theorem mem_lPos_iff {T : Topo} (hv : T.Valid)
    (hc : ∀ r, r < T.nBus → (∃ b ∈ T.branches, b.1 = some r ∨ b.2 = some r) ∨ r ∈ T.shuntBus) {r c : Nat} (hr : r < T.nBus) :
    (r, c) ∈ lPos T (positions T.nBus) ↔ InLu T r c := by
  rw [mem_lPos, isL_iff]
  unfold InLu
  rw [← mem_yPos_iff hv hc hr, mem_yPos, isY_iff (fillAlone_of_valid hv)]
  constructor
  · rintro ⟨_, hc', x, hx, hp⟩
    cases hf : x.el.type.isFill
    · exact Or.inl ⟨hr, hc', x, hx, hp, hf⟩
    · right
      rw [mem_collect] at hx
      rcases hx with ⟨b, k, hb, h⟩ | ⟨b, k, hb, hk, rfl⟩ | ⟨f, k, hk, h⟩
      · rw [mem_branchElems] at h
        rcases h with ⟨_, _, rfl⟩ | ⟨_, _, _, _, rfl⟩ | ⟨_, _, _, _, rfl⟩ | ⟨_, _, rfl⟩ <;> simp [ElType.isFill] at hf
      · simp [ElType.isFill] at hf
      · have hm := List.mem_of_getElem? hk
        simp only [fillElems, List.mem_cons, List.not_mem_nil, or_false] at h
        rcases h with rfl | rfl <;> simp only [Prod.mk.injEq] at hp
        · left; rw [← hp.1, ← hp.2]; exact hm
        · right; rw [← hp.1, ← hp.2]; exact hm
  · rintro (⟨_, hc', x, hx, hp, _⟩ | h | h)
    · exact ⟨hr, hc', x, hx, hp⟩
    · obtain ⟨k, hk⟩ := List.mem_iff_getElem?.mp h
      exact ⟨hr, (hv.fillRange _ h).2, _, mem_collect.mpr (Or.inr (Or.inr ⟨_, k, hk, by simp [fillElems]; exact Or.inl rfl⟩)), rfl⟩
    · obtain ⟨k, hk⟩ := List.mem_iff_getElem?.mp h
      exact ⟨hr, (hv.fillRange _ h).1, _, mem_collect.mpr (Or.inr (Or.inr ⟨_, k, hk, by simp [fillElems]; exact Or.inr rfl⟩)), rfl⟩

theorem csr_of {n : Nat} {N : List Pos} (hs : N.Pairwise Before) (hN : ∀ q ∈ N, q.1 < n) {ip : List Nat}
    (hl : ip.length = n + 1) (hv : ∀ r, r ≤ n → ip[r]? = some (N.countP fun q => decide (q.1 < r)))
    (pattern : Nat → Nat → Prop) (hp : ∀ r, r < n → ∀ c, (r, c) ∈ N ↔ pattern r c) : IsCsr n ip (N.map (·.2)) pattern where
  len := hl
  first := by rw [hv 0 (by omega)]; simp [List.countP_eq_zero]
  last := by
    rw [hv n (by omega), List.length_map]
    congr 1
    rw [List.countP_eq_length]
    intro q hq
    simpa using hN q hq
  mono := fun r hr => ⟨_, _, hv r (by omega), hv (r + 1) hr, by
    apply List.countP_mono_left
    intro q _ h
    simp only [decide_eq_true_eq] at h ⊢
    omega⟩
  sorted := by
    intro r c k c' k' h1 h2 hlt
    rw [entryAt_iff hs hN hl hv] at h1 h2
    obtain ⟨l1, e1⟩ := List.getElem?_eq_some_iff.mp h1
    obtain ⟨l2, e2⟩ := List.getElem?_eq_some_iff.mp h2
    have := List.pairwise_iff_getElem.mp hs k k' l1 l2 hlt
    rw [e1, e2] at this
    rcases this with h | ⟨_, h⟩
    · simp at h
    · exact h
  pattern := by
    intro r hr c
    rw [← hp r hr c, List.mem_iff_getElem?]
    constructor
    · rintro ⟨k, hk⟩
      exact ⟨k, (entryAt_iff hs hN hl hv _ _ _).mp hk⟩
    · rintro ⟨k, hk⟩
      exact ⟨k, (entryAt_iff hs hN hl hv _ _ _).mpr hk⟩

/-! ## Properties: structure -/

/-- What the structure has to satisfy. -/
structure IsStructure (T : Topo) (S : Structure) : Prop where
  /-- The admittance matrix has exactly the diagonal and the connected pairs, in increasing order. -/
  y : IsCsr T.nBus S.rowIndptr S.colIndices (InY T)
  /-- The factorised matrix has in addition exactly the fill-ins. -/
  lu : IsCsr T.nBus S.rowIndptrLu S.colIndicesLu (InLu T)
  /-- The diagonal entries. -/
  bus : S.busEntry.length = T.nBus ∧ ∀ r, r < T.nBus → ∃ k, S.busEntry[r]? = some k ∧ EntryAt S.rowIndptr S.colIndices r r k
  diag : S.diagLu.length = T.nBus ∧ ∀ r, r < T.nBus → ∃ k, S.diagLu[r]? = some k ∧ EntryAt S.rowIndptrLu S.colIndicesLu r r k
  /-- The map between them: to the entry at the same position, or -1 for a fill-in. -/
  map : S.mapLuYBus.length = S.colIndicesLu.length ∧ ∀ r c k, EntryAt S.rowIndptrLu S.colIndicesLu r c k →
    (InY T r c → ∃ k', S.mapLuYBus[k]? = some (some k') ∧ EntryAt S.rowIndptr S.colIndices r c k') ∧
    (¬ InY T r c → S.mapLuYBus[k]? = some none)
  /-- The transposed entry. -/
  transpose : S.transposeEntry.length = S.colIndicesLu.length ∧ ∀ r c k, EntryAt S.rowIndptrLu S.colIndicesLu r c k →
    ∃ k', S.transposeEntry[k]? = some k' ∧ EntryAt S.rowIndptrLu S.colIndicesLu c r k'

/-- All facts about the structure in the usual case, in terms of the positions. -/
theorem build_good {T : Topo} (hv : T.Valid)
    (hc : ∀ r, r < T.nBus → (∃ b ∈ T.branches, b.1 = some r ∨ b.2 = some r) ∨ r ∈ T.shuntBus) :
    ∃ S, build T = some S ∧ IsStructure T S ∧
      (∀ r c k, EntryAt S.rowIndptr S.colIndices r c k ↔ (yPos T (positions T.nBus))[k]? = some (r, c)) ∧
      S.nnz = (yPos T (positions T.nBus)).length ∧
      S.element = ((yPos T (positions T.nBus)).flatMap (at_ T)).map (·.el) ∧
      S.entryIndptr = (List.range ((yPos T (positions T.nBus)).length + 1)).map fun k =>
        (((yPos T (positions T.nBus)).take k).map fun p => (at_ T p).length).sum := by
  have G := good_of_valid hv hc
  obtain ⟨v, hs, hvv, h⟩ := build_inv G
  have hne : ¬ (T.branches.length = 0 ∧ T.shuntBus.length = 0) := by
    rintro ⟨h1, h2⟩
    have hb : T.branches = [] := List.length_eq_zero_iff.mp h1
    have hsb : T.shuntBus = [] := List.length_eq_zero_iff.mp h2
    have := hc 0 hv.nonempty
    rw [hb, hsb] at this
    simp at this
  set b := buildLoop T.branches.length v (Build.start T) with hb
  set N := yPos T (positions T.nBus) with hN
  set L := lPos T (positions T.nBus) with hL
  have hNlt : ∀ q ∈ N, q.1 < T.nBus := fun q hq => (mem_yPos.mp hq).1
  have hLlt : ∀ q ∈ L, q.1 < T.nBus := fun q hq => (mem_lPos.mp hq).1
  have hlastY : ((T.nBus - 1, T.nBus - 1) : Pos) ∈ N :=
    (mem_yPos_iff hv hc (by have := hv.nonempty; omega)).mpr (Or.inl rfl)
  have hlastL : ((T.nBus - 1, T.nBus - 1) : Pos) ∈ L :=
    (mem_lPos_iff hv hc (by have := hv.nonempty; omega)).mpr (Or.inl (Or.inl rfl))
  have hnnz : b.nnz = N.length := by unfold Build.nnz; rw [h.cols]; simp [hN]
  have hnnzLu : b.nnzLu = L.length := by unfold Build.nnzLu; rw [h.map]; simp [hL]
  obtain ⟨y1, y2⟩ := h.rows.finish hNlt ⟨_, hlastY, by have := hv.nonempty; simp only; omega⟩
  obtain ⟨l1, l2⟩ := h.rowsLu.finish hLlt ⟨_, hlastL, by have := hv.nonempty; simp only; omega⟩
  rw [← hN] at y1 y2
  rw [← hL] at l1 l2
  rw [← hnnz] at y1 y2
  rw [← hnnzLu] at l1 l2
  have hsY : N.Pairwise Before := yPos_sorted T T.nBus
  have hsL : L.Pairwise Before := lPos_sorted T T.nBus
  have eY := entryAt_iff hsY hNlt y1 y2
  have eL := entryAt_iff hsL hLlt l1 l2
  have hcols : b.colIndices = N.map (·.2) := h.cols
  have hcolsLu : b.colIndicesLu = L.map (·.2) := h.colsLu
  have hidx : ∀ (M : List Pos), ∀ p ∈ M, M[M.idxOf p]? = some p := fun M p hp => by
    have := List.idxOf_lt_length_of_mem hp
    rw [List.getElem?_eq_getElem this, List.getElem_idxOf this]
  have helem : (v.filter fun e => !e.el.type.isFill).map (·.el) = (N.flatMap (at_ T)).map (·.el) := by
    congr 1
    rw [hvv, List.filter_flatMap, hN, yPos]
    generalize positions T.nBus = ps
    induction ps with
    | nil => rfl
    | cons p ps ih =>
      rw [List.flatMap_cons, ih, List.filter_cons]
      cases hp : at_ T p with
      | nil => simp [isY, hp]
      | cons e es =>
        cases hf : e.el.type.isFill
        · have hyp : isY T p = true := by simp [isY, hp, hf]
          rw [if_pos hyp, List.flatMap_cons, hp]
          congr 1
          rw [List.filter_eq_self]
          intro x hx
          rw [← hp] at hx
          by_contra hcx
          have hcx : x.el.type.isFill = true := by simpa using hcx
          have := G.alone p x hx hcx
          rw [hp] at this
          injection this with h1 _
          rw [h1, hcx] at hf
          simp at hf
        · have hyp : isY T p = false := by simp [isY, hp, hf]
          have := G.alone p e (by simp [hp]) hf
          rw [hp] at this
          rw [if_neg (by simp [hyp]), this]
          simp [hf]
  refine ⟨_, by unfold build; rw [hs]; rfl, ?_⟩
  simp only
  rw [if_neg hne]
  refine ⟨⟨?_, ?_, ?_, ?_, ?_, ?_⟩, ?_, ?_, helem, h.indptr⟩
  · simp only
    rw [hcols]
    exact csr_of hsY hNlt y1 y2 _ (fun r hr c => mem_yPos_iff hv hc hr)
  · simp only
    rw [hcolsLu]
    exact csr_of hsL hLlt l1 l2 _ (fun r hr c => mem_lPos_iff hv hc hr)
  · refine ⟨h.bus.1, fun r hr => ?_⟩
    have hm : ((r, r) : Pos) ∈ N := (mem_yPos_iff hv hc hr).mpr (Or.inl rfl)
    refine ⟨_, h.bus.2 r hm, ?_⟩
    simp only
    rw [hcols, eY]
    exact hidx N _ hm
  · refine ⟨h.diag.1, fun r hr => ?_⟩
    have hm : ((r, r) : Pos) ∈ N := (mem_yPos_iff hv hc hr).mpr (Or.inl rfl)
    have hm' : ((r, r) : Pos) ∈ L := (mem_lPos_iff hv hc hr).mpr (Or.inl (Or.inl rfl))
    refine ⟨_, h.diag.2 r hm, ?_⟩
    simp only
    rw [hcolsLu, eL]
    exact hidx L _ hm'
  · simp only
    refine ⟨by rw [h.map, hcolsLu]; simp [hL], fun r c k hk => ?_⟩
    rw [hcolsLu, eL] at hk
    have hr : r < T.nBus := hLlt _ (List.mem_of_getElem? hk)
    rw [h.map, List.getElem?_map, ← hL, hk]
    simp only [Option.map_some]
    have hLm := mem_lPos.mp (List.mem_of_getElem? hk)
    have hyI : isY T (r, c) = true ↔ InY T r c := by
      rw [← mem_yPos_iff hv hc hr, mem_yPos]
      exact ⟨fun h => ⟨hLm.1, hLm.2.1, h⟩, fun h => h.2.2⟩
    constructor
    · intro hy
      rw [if_pos (hyI.mpr hy)]
      refine ⟨_, rfl, ?_⟩
      rw [hcols, eY]
      exact hidx N _ ((mem_yPos_iff hv hc hr).mpr hy)
    · intro hy
      rw [if_neg (fun h => hy (hyI.mp h))]
  · simp only
    refine ⟨?_, fun r c k hk => ?_⟩
    · have : ∀ (ps : List (Nat × Nat)) (t : List Nat), (ps.foldl setTranspose t).length = t.length := by
        intro ps
        induction ps with
        | nil => intro t; rfl
        | cons e ps ih => intro t; rw [List.foldl_cons, ih]; simp [setTranspose]
      rw [this, List.length_range, hnnzLu, hcolsLu, List.length_map]
    · rw [hcolsLu, eL] at hk
      have hm := List.mem_of_getElem? hk
      have hLm := mem_lPos.mp hm
      have hm' : ((c, r) : Pos) ∈ L := mem_lPos.mpr ⟨hLm.2.1, hLm.1, isL_transposed hLm.2.2⟩
      have ht := transpose_final G h (r, c) hm
      have hk' : L.idxOf (r, c) = k := by
        obtain ⟨hlt, e⟩ := List.getElem?_eq_some_iff.mp hk
        rw [← e, List.Nodup.idxOf_getElem (lPos_nodup T T.nBus)]
      rw [← hL, hk'] at ht
      refine ⟨_, ht, ?_⟩
      rw [hcolsLu, eL]
      exact hidx L _ hm'
  · intro r c k
    simp only
    rw [hcols]
    exact eY r c k
  · unfold Structure.nnz
    simp only
    have := y2 T.nBus (Nat.le_refl _)
    rw [List.getLast?_eq_getElem?, y1]
    simp only [Nat.add_sub_cancel]
    rw [this]
    simp only [Option.getD_some]
    rw [List.countP_eq_length]
    intro q hq
    simpa using hNlt q hq

/-- The structure of a single bus without branches and shunts. -/
def single : Structure where
  rowIndptr := [0, 1]
  colIndices := [0]
  element := []
  entryIndptr := [0, 0]
  busEntry := [0]
  rowIndptrLu := [0, 1]
  colIndicesLu := [0]
  diagLu := [0]
  mapLuYBus := [some 0]
  transposeEntry := [0]

theorem build_single {T : Topo} (hv : T.Valid) (h : T.branches = [] ∧ T.shuntBus = [] ∧ T.nBus = 1) :
    build T = some single := by
  obtain ⟨h1, h2, h3⟩ := h
  have hf : T.fillIn = [] := by
    cases hfi : T.fillIn with
    | nil => rfl
    | cons f fs =>
      have a := hv.fillRange f (by simp [hfi])
      have b := hv.fillOff f (by simp [hfi])
      omega
  obtain ⟨n, br, sh, fi⟩ := T
  simp only at h1 h2 h3 hf
  subst h1 h2 h3 hf
  unfold build
  have : collect ⟨1, [], [], []⟩ = [] := by decide
  rw [this, countingSort_spec 1 (by omega) [] (by simp)]
  have hnil : (positions 1).flatMap (fun p => ([] : List ElemMap).filter fun x => decide (x.pos = p)) = [] := by simp
  rw [hnil, Option.map_some]
  simp only [buildLoop]
  rfl

theorem entryAt_single {r c k : Nat} : EntryAt [0, 1] [0] r c k ↔ r = 0 ∧ c = 0 ∧ k = 0 := by
  constructor
  · rintro ⟨a, z, h1, h2, h3, h4, h5⟩
    have hr : r = 0 := by
      have := (List.getElem?_eq_some_iff.mp h2).1
      simp only [List.length_cons, List.length_nil] at this
      omega
    subst hr
    simp only [List.getElem?_cons_zero, Option.some.injEq, Nat.zero_add, List.getElem?_cons_succ] at h1 h2
    have hk : k = 0 := by omega
    subst hk
    simp only [List.getElem?_cons_zero, Option.some.injEq] at h5
    exact ⟨rfl, h5.symm, rfl⟩
  · rintro ⟨rfl, rfl, rfl⟩
    exact ⟨0, 1, rfl, rfl, by omega, by omega, rfl⟩

/-- Building the structure succeeds for every valid island and gives the right structure. -/
theorem structure_correct {T : Topo} (hv : T.Valid) : ∃ S, build T = some S ∧ IsStructure T S := by
  rcases hv.covered with h | h
  · refine ⟨_, build_single hv h, ?_⟩
    obtain ⟨h1, h2, h3⟩ := h
    have hf : T.fillIn = [] := by
      cases hfi : T.fillIn with
      | nil => rfl
      | cons f fs =>
        have a := hv.fillRange f (by simp [hfi])
        have b := hv.fillOff f (by simp [hfi])
        omega
    have hY : ∀ r, r < 1 → ∀ c, (∃ k, EntryAt [0, 1] [0] r c k) ↔ InY T r c := by
      intro r hr c
      simp only [entryAt_single, InY, h1, List.not_mem_nil, false_and, exists_false, or_false]
      constructor
      · rintro ⟨_, rfl, rfl, _⟩; rfl
      · intro e; exact ⟨0, by omega, by omega, rfl⟩
    have hcsr : ∀ (pat : Nat → Nat → Prop), (∀ r, r < 1 → ∀ c, (∃ k, EntryAt [0, 1] [0] r c k) ↔ pat r c) →
        IsCsr 1 [0, 1] [0] pat := fun pat hp =>
      ⟨rfl, rfl, rfl, fun r hr => ⟨0, 1, by have : r = 0 := by omega
                                            subst this; rfl, by have : r = 0 := by omega
                                                                subst this; rfl, by omega⟩,
        fun r c k c' k' e1 e2 hlt => by rw [entryAt_single] at e1 e2; omega, hp⟩
    have hdiag : ∀ r, r < 1 → ∃ k, [0][r]? = some k ∧ EntryAt [0, 1] [0] r r k := by
      intro r hr
      have : r = 0 := by omega
      subst this
      exact ⟨0, rfl, entryAt_single.mpr ⟨rfl, rfl, rfl⟩⟩
    refine ⟨by rw [h3]; exact hcsr _ hY, ?_, ?_, ?_, ?_, ?_⟩
    · rw [h3]
      refine hcsr _ fun r hr c => ?_
      rw [hY r hr c]
      simp [InLu, hf]
    · rw [h3]; exact ⟨rfl, hdiag⟩
    · rw [h3]; exact ⟨rfl, hdiag⟩
    · refine ⟨rfl, fun r c k hk => ?_⟩
      have hk := entryAt_single.mp hk
      obtain ⟨rfl, rfl, rfl⟩ := hk
      exact ⟨fun _ => ⟨0, rfl, entryAt_single.mpr ⟨rfl, rfl, rfl⟩⟩, fun hn => absurd (Or.inl rfl) hn⟩
    · refine ⟨rfl, fun r c k hk => ?_⟩
      have hk := entryAt_single.mp hk
      obtain ⟨rfl, rfl, rfl⟩ := hk
      exact ⟨0, rfl, entryAt_single.mpr ⟨rfl, rfl, rfl⟩⟩
  · obtain ⟨S, h1, h2, _⟩ := build_good hv h
    exact ⟨S, h1, h2⟩

end PGM.YBus
