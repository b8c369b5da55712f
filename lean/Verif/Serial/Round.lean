import Verif.Serial.Elements

/-! # Serialisation: reading scenarios and components -/

namespace PGM.Serial

variable {g : Token → Token}

/-- The facts about a source component and a target that the reading of its elements needs. -/
structure Setting (D : Dataset) (compact : Bool) (c : Component) (target : Target) (attributes : List MetaAttribute) (mem0 : Memory) : Prop where
  meta_ : (c.component.attributes.map MetaAttribute.name).Nodup
  suitable : Suitable c.component target
  columns : ∀ l, c.columns = some l → (l.map MetaAttribute.name).Nodup ∧ ∀ a ∈ l, a ∈ c.component.attributes
  typed : ∀ a ∈ c.component.attributes, Has c a → ∀ i : Nat, i < c.total → Typed a.ctype (c.cell i a.name)
  nan : ∀ i : Nat, i < c.total → ∀ s a, targetAttribute c.component target s = some a → mem0 i s = nanCell a.ctype
  compact_ : compact = true → attributes = attributesOf D c.component.name ∧ ∀ i : Nat, i < c.total → Complete c i attributes
  verbose : compact = false → attributes = []

/-- If nothing of the list is wanted, the element has no value that is wanted. -/
theorem noneListed_fill {D : Dataset} {c : Component} {target : Target} {attributes : List MetaAttribute} {mem0 : Memory}
    (h : Setting D true c target attributes mem0) (hn : noneListed c.component target attributes = true) {i : Nat} (hi : (i : Int) < c.total) :
    fill c.component target c mem0 (i + 1) = fill c.component target c mem0 i := by
  rw [← readInto_fill h.meta_ h.suitable rfl ((h.compact_ rfl).2 i hi) (h.nan i hi)]
  funext j s
  rw [readInto_apply, if_neg]
  rintro ⟨-, ⟨a, ha, rfl⟩, h3⟩
  unfold noneListed at hn
  split at hn
  · have := List.all_eq_true.mp hn a ha
    rw [Option.isNone_iff_eq_none] at this
    rw [this] at h3
    cases h3
  · cases hn

theorem parseElement_read (hg : Transport g) {D : Dataset} {compact : Bool} {c : Component} {target : Target} {attributes : List MetaAttribute}
    {mem0 : Memory} (h : Setting D compact c target attributes mem0) {i : Nat} (hi : (i : Int) < c.total) (rest : List Token) :
    parseElement c.component target attributes i (fill c.component target c mem0 i) (tElement g D compact c i ++ rest) =
      .ok (fill c.component target c mem0 (i + 1), rest) := by
  have hnan : ∀ (a : MetaAttribute), a ∈ c.component.attributes → (targetAttribute c.component target a.name).isSome = true →
      fill c.component target c mem0 i i a.name = nanCell a.ctype := by
    intro a ha h1
    obtain ⟨b, hb⟩ := Option.isSome_iff_exists.mp h1
    obtain ⟨h2, h3, -⟩ := targetAttribute_some h.meta_ h.suitable hb
    have : b = a := attribute_unique h.meta_ h3 ha h2
    subst this
    unfold fill
    rw [hb]
    simp only [Nat.lt_irrefl, if_false]
    exact h.nan i hi _ _ hb
  cases compact with
  | true =>
    obtain ⟨h1, h2⟩ := h.compact_ rfl
    have h3 := h2 i hi
    have hobj := tElement_objs hg D true c i
    unfold tElement at hobj ⊢
    simp only [if_true] at hobj ⊢
    rw [← h1] at hobj ⊢
    unfold parseElement
    simp only [List.cons_append, parseMapArray]
    by_cases hn : noneListed c.component target attributes = true
    · have := parseSkip_objs hobj rest
      rw [List.cons_append] at this
      rw [if_pos hn, this, noneListed_fill h hn hi]
    · rw [if_neg hn, if_neg (by simp),
        parseList_read hg h.meta_ h.suitable rest h3.nodup h3.sub (fun a ha => h.typed a (h3.sub a ha) (h3.has a ha) i hi)
          (fun a ha h1 => hnan a (h3.sub a ha) h1), readInto_fill h.meta_ h.suitable rfl h3 (h.nan i hi)]
  | false =>
    have h3 : Complete c i (valid c i) := valid_complete h.columns h.meta_ (fun a ha hh => h.typed a ha hh i hi)
    unfold tElement parseElement
    simp only [Bool.false_eq_true, if_false, List.cons_append, parseMapArray]
    rw [parseMapElement_read hg h.meta_ h.suitable rest h3.nodup h3.sub (fun a ha => h.typed a (h3.sub a ha) (h3.has a ha) i hi)
          (fun a ha => by simpa using (List.mem_filter.mp ha).2) (fun a ha h1 => hnan a (h3.sub a ha) h1),
          readInto_fill h.meta_ h.suitable rfl h3 (h.nan i hi)]

theorem parseElements_read (hg : Transport g) {D : Dataset} {compact : Bool} {c : Component} {target : Target} {attributes : List MetaAttribute}
    {mem0 : Memory} (h : Setting D compact c target attributes mem0) : ∀ {n i : Nat}, ((i + n : Nat) : Int) ≤ c.total → ∀ rest,
    parseElements c.component target attributes n i (fill c.component target c mem0 i)
      (((List.range n).flatMap fun k => tElement g D compact c (i + k)) ++ rest) = .ok (fill c.component target c mem0 (i + n), rest)
  | 0, i, _, rest => by simp [parseElements]
  | n + 1, i, hi, rest => by
    rw [List.range_succ_eq_map, List.flatMap_cons, List.append_assoc, parseElements, Nat.add_zero, parseElement_read hg h (by push_cast at hi; omega)]
    simp only [List.flatMap_map]
    have := parseElements_read hg h (n := n) (i := i + 1) (by push_cast at hi ⊢; omega) rest
    rw [show i + (n + 1) = i + 1 + n by omega, ← this]
    congr 2
    refine List.flatMap_congr fun k _ => ?_
    rw [show i + k.succ = i + 1 + k by omega]

/-- A whole scenario. -/
theorem parseScenario_read (hg : Transport g) {D : Dataset} {compact : Bool} {c : Component} {target : Target} {attributes : List MetaAttribute}
    {mem0 : Memory} (h : Setting D compact c target attributes mem0) {i n : Nat} (hi : ((i + n : Nat) : Int) ≤ c.total) {b : ByteMeta}
    (hb : b.size = n) (hr : 0 < n → Remembers g D compact ⟨c, i, n⟩ b) :
    parseScenario c.component target attributes i b (fill c.component target c mem0 i) = .ok (fill c.component target c mem0 (i + n)) := by
  unfold parseScenario
  rcases Nat.eq_zero_or_pos n with h0 | h0
  · rw [if_pos (by omega), h0, Nat.add_zero]
  · obtain ⟨-, -, h3, rest, h4⟩ := hr h0
    rw [if_neg (by omega)]
    by_cases hn : noneListed c.component target attributes = true ∧ b.hasMap = false
    · rw [if_pos hn]
      have hc : compact = true := by
        rw [h3] at hn
        simpa using hn.2
      subst hc
      have : ∀ k, k ≤ n → fill c.component target c mem0 (i + k) = fill c.component target c mem0 i := by
        intro k
        induction k with
        | zero => intro _; rfl
        | succ k ih =>
          intro hk
          rw [← Nat.add_assoc, noneListed_fill h hn.1 (by push_cast at hi ⊢; omega), ih (by omega)]
      rw [this n le_rfl]
    · rw [if_neg hn, h4]
      simp only [parseArray]
      rw [hb, tElements, parseElements_read hg h hi]

theorem parseScenarios_read (hg : Transport g) {D : Dataset} {compact : Bool} {c : Component} {target : Target} {attributes : List MetaAttribute}
    {mem0 : Memory} (h : Setting D compact c target attributes mem0) (hd : Described D.batchSize c) {per : Int} {indptr : List Int}
    (ho : ∀ s < D.batchSize, scenarioOffset per indptr s = off c s) : ∀ {l : List ByteMeta} {s : Nat}, s + l.length = D.batchSize →
    (∀ (k : Nat) (b : ByteMeta), l[k]? = some b → b.size = cnt c (s + k) ∧ (0 < cnt c (s + k) → Remembers g D compact ⟨c, off c (s + k), cnt c (s + k)⟩ b)) →
    parseScenarios c.component target attributes per indptr s l (fill c.component target c mem0 (off c s)) =
      .ok (fill c.component target c mem0 (off c D.batchSize))
  | [], s, hs, _ => by
    rw [List.length_nil, Nat.add_zero] at hs
    rw [parseScenarios, hs]
  | b :: l, s, hs, hb => by
    rw [List.length_cons] at hs
    have h1 := hb 0 b rfl
    rw [Nat.add_zero] at h1
    have h2 := off_succ hd (s := s) (by omega)
    have h3 := off_mono hd le_rfl (s := s + 1) (by omega)
    have h4 := off_batch hd
    rw [parseScenarios, ho s (by omega), parseScenario_read hg h (n := cnt c s) (by omega) h1.1 h1.2]
    simp only [← h2]
    refine parseScenarios_read hg h hd ho (by omega) fun k b' hk => ?_
    have := hb (k + 1) b' hk
    rwa [show s + (k + 1) = s + 1 + k by omega] at this

theorem setNan_nan {m : MetaComponent} {target : Target} {total i : Nat} {mem : Memory} (hi : i < total) {s : String} {a : MetaAttribute}
    (h : targetAttribute m target s = some a) : setNan m target total mem i s = nanCell a.ctype := by
  unfold setNan
  cases target with
  | absent => cases h
  | row =>
    simp only [targetAttribute] at h
    simp only [targetAttributes]
    rw [h]
    simp only [hi, if_true]
  | columns l =>
    simp only [targetAttribute] at h
    simp only [targetAttributes]
    rw [h]
    simp only [hi, if_true]

theorem setNan_outside {m : MetaComponent} {target : Target} {total i : Nat} {mem : Memory} (hi : total ≤ i) (s : String) :
    setNan m target total mem i s = mem i s := by
  unfold setNan
  split
  · rw [if_neg (by omega)]
  · rfl

theorem setNan_unwanted {m : MetaComponent} {target : Target} {total i : Nat} {mem : Memory} {s : String}
    (h : targetAttribute m target s = none) : setNan m target total mem i s = mem i s := by
  unfold setNan
  cases target with
  | absent => rfl
  | row =>
    simp only [targetAttribute] at h
    simp only [targetAttributes]
    rw [h]
  | columns l =>
    simp only [targetAttribute] at h
    simp only [targetAttributes]
    rw [h]

/-- A whole component. -/
theorem parseComponent_read (hg : Transport g) {D : Dataset} {compact : Bool} {c : Component} {target : Target} {attributes : List MetaAttribute}
    {mem : Memory} {x : Announced} (hgiven : target.given = true) (hd : Described D.batchSize c) (hx : x.component = c.component) (hxt : x.total = c.total)
    (h : ∀ mem0, (∀ i : Nat, i < c.total → ∀ s a, targetAttribute c.component target s = some a → mem0 i s = nanCell a.ctype) →
      Setting D compact c target attributes mem0)
    (hi : x.indications = true → ∀ s < D.batchSize, 0 < cnt c s → compact = true)
    (ho : ∀ s < D.batchSize, scenarioOffset x.perScenario (scan 0 (x.bytes.map ByteMeta.size)) s = off c s)
    (hl : x.bytes.length = D.batchSize)
    (hb : ∀ (s : Nat) (b : ByteMeta), x.bytes[s]? = some b → b.size = cnt c s ∧ (0 < cnt c s → Remembers g D compact ⟨c, off c s, cnt c s⟩ b)) :
    parseComponent attributes x target mem =
      .ok (fill c.component target c (setNan c.component target c.total.toNat mem) (off c D.batchSize)) := by
  have hS := h (setNan c.component target c.total.toNat mem) fun i hi s a ha => setNan_nan (by omega) ha
  have h0 : fill c.component target c (setNan c.component target c.total.toNat mem) (off c 0) = setNan c.component target c.total.toNat mem := by
    funext j s
    rw [off_zero hd]
    unfold fill
    split
    · simp
    · rfl
  have key : (if x.indications = true ∧ noneListed x.component target attributes = true then Except.ok (setNan x.component target x.total.toNat mem)
      else parseScenarios x.component target attributes x.perScenario (scan 0 (x.bytes.map ByteMeta.size)) 0 x.bytes
        (setNan x.component target x.total.toNat mem)) =
      .ok (fill c.component target c (setNan c.component target c.total.toNat mem) (off c D.batchSize)) := by
    rw [hx, hxt]
    by_cases hn : x.indications = true ∧ noneListed c.component target attributes = true
    · rw [if_pos hn]
      have h1 : ∀ s, s ≤ D.batchSize → fill c.component target c (setNan c.component target c.total.toNat mem) (off c s) =
          setNan c.component target c.total.toNat mem := by
        intro s
        induction s with
        | zero => intro _; exact h0
        | succ s ih =>
          intro hs
          refine Eq.trans ?_ (ih (by omega))
          have h2 := off_succ hd (s := s) hs
          rcases Nat.eq_zero_or_pos (cnt c s) with h3 | h3
          · rw [h2, h3, Nat.add_zero]
          · have hc := hi hn.1 s hs h3
            subst hc
            have h4 := off_mono hd le_rfl (s := s + 1) hs
            have h5 := off_batch hd
            have : ∀ k, k ≤ cnt c s → fill c.component target c (setNan c.component target c.total.toNat mem) (off c s + k) =
                fill c.component target c (setNan c.component target c.total.toNat mem) (off c s) := by
              intro k
              induction k with
              | zero => intro _; rfl
              | succ k ihk =>
                intro hk
                rw [← Nat.add_assoc, noneListed_fill hS hn.2 (by omega), ihk (by omega)]
            rw [h2, this _ le_rfl]
      rw [h1 _ le_rfl]
    · rw [if_neg hn]
      have := parseScenarios_read hg hS hd ho (l := x.bytes) (s := 0) (by omega) (fun k b hk => by
        rw [Nat.zero_add]
        exact hb k b hk)
      rw [h0] at this
      exact this
  cases target with
  | absent => cases hgiven
  | row => exact key
  | columns l =>
    cases l with
    | nil => cases hgiven
    | cons a l => exact key

/-! ## The announcement -/

theorem find_by_name {α : Type} {l : List α} {f : α → String} (hl : (l.map f).Nodup) {a : α} (ha : a ∈ l) :
    l.find? (fun b => f b == f a) = some a := by
  cases h : l.find? (fun b => f b == f a) with
  | none =>
    have := List.find?_eq_none.mp h a ha
    simp at this
  | some b =>
    have h1 := List.find?_some h
    rw [List.inj_on_of_nodup_map hl (List.mem_of_find?_eq_some h) ha (by simpa using h1)]

theorem metaAttributes_names {m : MetaComponent} (hm : (m.attributes.map MetaAttribute.name).Nodup) : ∀ {l : List MetaAttribute},
    (∀ a ∈ l, a ∈ m.attributes) → metaAttributes m (l.map MetaAttribute.name) = .ok l
  | [], _ => rfl
  | a :: l, h => by
    rw [List.map_cons, metaAttributes, find_by_name hm (h a (by simp))]
    simp only [metaAttributes_names hm fun b hb => h b (List.mem_cons_of_mem _ hb)]

theorem predefined_names {M : MetaDataset} {announced : List Announced} (hM : (M.components.map MetaComponent.name).Nodup)
    (hA : ∀ m ∈ M.components, (m.attributes.map MetaAttribute.name).Nodup) : ∀ {l : List (String × List MetaAttribute)},
    (∀ x ∈ l, (∃ m ∈ M.components, m.name = x.1 ∧ ∀ a ∈ x.2, a ∈ m.attributes) ∧ announced.any (fun y => y.component.name == x.1) = true) →
    predefined M announced (l.map fun x => (x.1, x.2.map MetaAttribute.name)) = .ok l
  | [], _ => rfl
  | x :: l, h => by
    obtain ⟨⟨m, hm, hn, ha⟩, h2⟩ := h x (by simp)
    rw [List.map_cons, predefined, ← hn, find_by_name hM hm]
    simp only [metaAttributes_names (hA m hm) ha]
    rw [if_pos (by rw [hn]; exact h2)]
    simp only [predefined_names hM hA fun y hy => h y (List.mem_cons_of_mem _ hy)]
    rw [hn]

/-- The views of all scenarios together. -/
theorem mem_allViews {D : Dataset} (hW : WellFormed D) {v : View} :
    v ∈ allViews D ↔ v.source ∈ D.components ∧ v.idx = 0 ∧ (v.size : Int) = v.source.total ∧ 0 < v.source.total := by
  unfold allViews
  rw [mem_views]
  constructor
  · rintro ⟨h1, h2, h3, h4⟩
    obtain ⟨e1, e2, -⟩ := begin_facts (hW.divided _ h1)
    rw [e1] at h2 h3
    rw [e2] at h3
    refine ⟨h1, h2, ?_, ?_⟩ <;> omega
  · rintro ⟨h1, h2, h3, h4⟩
    obtain ⟨e1, e2, -⟩ := begin_facts (hW.divided _ h1)
    rw [e1, e2]
    refine ⟨h1, h2, ?_, ?_⟩ <;> omega

theorem find_allViews {D : Dataset} (hW : WellFormed D) {c : Component} (hc : c ∈ D.components) (ht : 0 < c.total) :
    (allViews D).find? (fun v => v.source.component.name == c.component.name) = some ⟨c, 0, c.total.toNat⟩ := by
  cases h : (allViews D).find? (fun v => v.source.component.name == c.component.name) with
  | none =>
    have := List.find?_eq_none.mp h ⟨c, 0, c.total.toNat⟩ ((mem_allViews hW).mpr ⟨hc, rfl, by simp; omega, ht⟩)
    simp at this
  | some v =>
    have h1 := List.find?_some h
    obtain ⟨h2, h3, h4, h5⟩ := (mem_allViews hW).mp (List.mem_of_find?_eq_some h)
    have h6 : v.source = c := component_unique hW h2 hc (by simpa using h1)
    congr 1
    cases v
    simp only at h3 h4 h6
    subst h6 h3
    congr 1
    omega

theorem attributesMap_nodup {D : Dataset} (hW : WellFormed D) : ((attributesMap D).map Prod.fst).Nodup := by
  refine List.Nodup.sublist ?_ hW.names
  unfold attributesMap
  generalize D.dataset.components = l
  induction l with
  | nil => exact List.Sublist.slnil
  | cons m l ih =>
    rw [List.filterMap_cons, List.map_cons]
    cases h : ((allViews D).find? fun v => v.source.component.name == m.name).map fun v => (m.name, listed v) with
    | none => exact List.Sublist.cons _ ih
    | some y =>
      have : y.1 = m.name := by
        obtain ⟨v, -, rfl⟩ := Option.map_eq_some_iff.mp h
        rfl
      simp only [List.map_cons]
      rw [this]
      exact List.Sublist.cons₂ _ ih

theorem mem_attributesMap {D : Dataset} (hW : WellFormed D) {x : String × List MetaAttribute} :
    x ∈ attributesMap D ↔ ∃ c ∈ D.components, 0 < c.total ∧ x = (c.component.name, listed ⟨c, 0, c.total.toNat⟩) := by
  unfold attributesMap
  rw [List.mem_filterMap]
  constructor
  · rintro ⟨m, hm, h⟩
    obtain ⟨v, h1, rfl⟩ := Option.map_eq_some_iff.mp h
    obtain ⟨h2, h3, h4, h5⟩ := (mem_allViews hW).mp (List.mem_of_find?_eq_some h1)
    have h6 := List.find?_some h1
    rw [beq_iff_eq] at h6
    rw [← h6] at h1
    rw [find_allViews hW h2 h5] at h1
    refine ⟨v.source, h2, h5, ?_⟩
    rw [← Option.some.inj h1]
    rw [← h6]
  · rintro ⟨c, hc, ht, rfl⟩
    refine ⟨c.component, hW.member c hc, ?_⟩
    rw [find_allViews hW hc ht]
    rfl

theorem lookup_of_mem {l : List (String × List MetaAttribute)} (hl : (l.map Prod.fst).Nodup) {s : String} {as : List MetaAttribute}
    (h : (s, as) ∈ l) : l.lookup s = some as := by
  induction l with
  | nil => cases h
  | cons x l ih =>
    rw [List.map_cons, List.nodup_cons] at hl
    rcases List.mem_cons.mp h with rfl | h'
    · rw [List.lookup_cons_self]
    · have : s ≠ x.1 := fun e => hl.1 (e ▸ List.mem_map.mpr ⟨(s, as), h', rfl⟩)
      obtain ⟨x1, x2⟩ := x
      rw [List.lookup_cons, show (s == x1) = false by simpa using this]
      exact ih hl.2 h'

theorem attributesOf_eq {D : Dataset} (hW : WellFormed D) {c : Component} (hc : c ∈ D.components) (ht : 0 < c.total) :
    attributesOf D c.component.name = listed ⟨c, 0, c.total.toNat⟩ := by
  unfold attributesOf
  rw [lookup_of_mem (attributesMap_nodup hW) ((mem_attributesMap hW).mpr ⟨c, hc, ht, rfl⟩)]
  rfl

theorem predefinedOf_eq {D : Dataset} (hW : WellFormed D) (compact : Bool) {c : Component} (hc : c ∈ D.components) (ht : 0 < c.total) :
    predefinedOf (sentAttributes D compact) c.component.name = if compact then listed ⟨c, 0, c.total.toNat⟩ else [] := by
  unfold sentAttributes predefinedOf
  cases compact with
  | false => rfl
  | true =>
    simp only [if_true]
    rw [lookup_of_mem (s := c.component.name) (as := listed ⟨c, 0, c.total.toNat⟩)]
    · rfl
    · rw [List.map_reverse, List.nodup_reverse]
      exact attributesMap_nodup hW
    · rw [List.mem_reverse]
      exact (mem_attributesMap hW).mpr ⟨c, hc, ht, rfl⟩

/-- Some scenario has elements if and only if there are any. -/
theorem total_pos {batch : Nat} {c : Component} (h : Described batch c) : 0 < c.total ↔ ∃ s < batch, 0 < cnt c s := by
  rw [← off_batch h]
  have key : ∀ n, n ≤ batch → (0 < off c n ↔ ∃ s < n, 0 < cnt c s) := by
    intro n
    induction n with
    | zero => intro _; rw [off_zero h]; simp
    | succ n ih =>
      intro hn
      rw [off_succ h hn]
      constructor
      · intro h1
        rcases Nat.eq_zero_or_pos (cnt c n) with h2 | h2
        · obtain ⟨s, hs, h3⟩ := (ih (by omega)).mp (by omega)
          exact ⟨s, by omega, h3⟩
        · exact ⟨n, by omega, h2⟩
      · rintro ⟨s, hs, h3⟩
        rcases Nat.lt_or_ge s n with h4 | h4
        · have := (ih (by omega)).mpr ⟨s, h4, h3⟩
          omega
        · rw [show s = n by omega] at h3
          omega
  rw [← key batch le_rfl]
  omega

end PGM.Serial
