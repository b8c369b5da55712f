import Verif.Serial.Sizes
import Mathlib.Tactic.SplitIfs

/-! # Serialisation: reading the elements -/

namespace PGM.Serial

variable {g : Token → Token}

theorem number_phase (hg : Transport g) (x : Real) : number (g (.float x)) = some x ∧ g (.float x) ≠ .nil := by
  rcases hg (.float x) with h | ⟨n, h1, h2⟩
  · rw [h]
    exact ⟨rfl, by intro h; cases h⟩
  · rw [h2]
    cases h1
    exact ⟨rfl, by intro h; cases h⟩

theorem phase_read (hg : Transport g) (x : Option Real) : phase (tPhase g x) none = .ok x := by
  cases x with
  | none => rfl
  | some y =>
    obtain ⟨h1, h2⟩ := number_phase hg y
    show phase (g (.float y)) none = _
    unfold phase
    split
    · exact absurd (by assumption) h2
    · rw [h1]

/-- A value is read where NaN was. -/
theorem parseValue_read (hg : Transport g) {t : CType} {x : Cell} (ht : Typed t x) (hn : isNan t x = false) (rest : List Token) :
    parseValue t (nanCell t) (tCell g x ++ rest) = .ok (x, rest) := by
  cases t <;> cases x <;> try exact ht.elim
  case double.real y =>
    cases y with
    | none => simp [isNan] at hn
    | some y =>
      obtain ⟨h1, h2⟩ := number_phase hg y
      show parseValue .double (.real none) (g (.float y) :: rest) = _
      unfold parseValue
      split
      · rename_i h
        exact absurd (List.cons.inj h).1 h2
      · rename_i h
        obtain ⟨rfl, rfl⟩ := List.cons.inj h
        simp only [h1]
      · rename_i h
        cases h
  case double3.three a b c =>
    show parseValue .double3 (.three none none none) (.array 3 :: tPhase g a :: tPhase g b :: tPhase g c :: rest) = _
    simp only [parseValue, phase_read hg]
  case int8.int n =>
    have : fits .int8 n = true := by
      unfold fits
      simpa [Typed] using ht
    simp only [tCell, nanCell, List.singleton_append, parseValue, this, if_true]
  case int32.int n =>
    have : fits .int32 n = true := by
      unfold fits
      simpa [Typed] using ht
    simp only [tCell, nanCell, List.singleton_append, parseValue, this, if_true]

theorem isNan_eq {t : CType} {x : Cell} (ht : Typed t x) (hn : isNan t x = true) : x = nanCell t := by
  cases t <;> cases x <;> try exact ht.elim
  case double.real y =>
    cases y with
    | none => rfl
    | some y => simp [isNan] at hn
  case double3.three a b c =>
    simp only [isNan, Bool.and_eq_true, Option.isNone_iff_eq_none] at hn
    rw [hn.1.1, hn.1.2, hn.2]
    rfl
  case int8.int n =>
    simp only [isNan, naInt, beq_iff_eq] at hn
    rw [hn]
    rfl
  case int32.int n =>
    simp only [isNan, naInt, beq_iff_eq] at hn
    rw [hn]
    rfl

theorem parseValue_inList (hg : Transport g) {c : Component} {i : Nat} {a : MetaAttribute} (ht : Typed a.ctype (c.cell i a.name))
    (rest : List Token) : parseValue a.ctype (nanCell a.ctype) (tInList g c i a ++ rest) = .ok (c.cell i a.name, rest) := by
  unfold tInList
  split
  · rename_i h
    rw [isNan_eq ht h]
    rfl
  · rename_i h
    exact parseValue_read hg ht (by simpa using h) rest

/-- The target finds an attribute of the component by its name. -/
theorem targetAttribute_some {m : MetaComponent} {target : Target} (hm : (m.attributes.map MetaAttribute.name).Nodup) (ht : Suitable m target)
    {s : String} {b : MetaAttribute} (h : targetAttribute m target s = some b) : b.name = s ∧ b ∈ m.attributes ∧ Wanted m target b := by
  cases target with
  | absent => cases h
  | row =>
    have h1 := List.find?_some h
    exact ⟨by simpa using h1, List.mem_of_find?_eq_some h, List.mem_of_find?_eq_some h⟩
  | columns l =>
    have h1 := List.find?_some h
    have h2 := List.mem_of_find?_eq_some h
    exact ⟨by simpa using h1, ht.2 b h2, h2⟩

theorem targetAttribute_wanted {m : MetaComponent} {target : Target} (hm : (m.attributes.map MetaAttribute.name).Nodup) (ht : Suitable m target)
    {a : MetaAttribute} (h : Wanted m target a) : targetAttribute m target a.name = some a := by
  cases target with
  | absent => exact h.elim
  | row =>
    cases h1 : targetAttribute m .row a.name with
    | none =>
      have := List.find?_eq_none.mp h1 a h
      simp at this
    | some b =>
      obtain ⟨h2, h3, -⟩ := targetAttribute_some hm ht h1
      rw [attribute_unique hm h3 h h2]
  | columns l =>
    cases h1 : targetAttribute m (.columns l) a.name with
    | none =>
      have := List.find?_eq_none.mp h1 a h
      simp at this
    | some b =>
      obtain ⟨h2, -, h3⟩ := targetAttribute_some hm ht h1
      rw [attribute_unique ht.1 h3 h h2]

/-- The memory after the attributes `l` of the element `i` have been read. -/
def readInto (m : MetaComponent) (target : Target) (c : Component) (i : Nat) : List MetaAttribute → Memory → Memory
  | [], mem => mem
  | a :: l, mem => readInto m target c i l (if (targetAttribute m target a.name).isSome then put mem i a.name (c.cell i a.name) else mem)

theorem readInto_apply (m : MetaComponent) (target : Target) (c : Component) (i : Nat) : ∀ (l : List MetaAttribute) (mem : Memory) (j : Nat)
    (s : String), readInto m target c i l mem j s =
      if j = i ∧ (∃ a ∈ l, a.name = s) ∧ (targetAttribute m target s).isSome = true then c.cell i s else mem j s
  | [], mem, j, s => by simp [readInto]
  | a :: l, mem, j, s => by
    rw [readInto, readInto_apply m target c i l]
    by_cases h1 : j = i ∧ (∃ b ∈ l, b.name = s) ∧ (targetAttribute m target s).isSome = true
    · rw [if_pos h1, if_pos ⟨h1.1, ⟨h1.2.1.choose, List.mem_cons_of_mem _ h1.2.1.choose_spec.1, h1.2.1.choose_spec.2⟩, h1.2.2⟩]
    · rw [if_neg h1]
      by_cases h2 : j = i ∧ a.name = s ∧ (targetAttribute m target s).isSome = true
      · obtain ⟨rfl, rfl, h3⟩ := h2
        rw [if_pos h3, if_pos ⟨rfl, ⟨a, by simp, rfl⟩, h3⟩, put, if_pos ⟨rfl, rfl⟩]
      · rw [if_neg (c := j = i ∧ (∃ b ∈ a :: l, b.name = s) ∧ (targetAttribute m target s).isSome = true)]
        · split
          · rename_i h3
            rw [put, if_neg]
            rintro ⟨rfl, rfl⟩
            exact h2 ⟨rfl, rfl, h3⟩
          · rfl
        · rintro ⟨e1, ⟨b, hb, hbs⟩, e3⟩
          rcases List.mem_cons.mp hb with rfl | hb
          · exact h2 ⟨e1, hbs, e3⟩
          · exact h1 ⟨e1, ⟨b, hb, hbs⟩, e3⟩

/-- One attribute is read where NaN was. -/
theorem parseAttribute_read {m : MetaComponent} {target : Target} {c : Component} {i : Nat} {mem : Memory} {a b : MetaAttribute}
    {ts rest : List Token} (hm : (m.attributes.map MetaAttribute.name).Nodup) (ht : Suitable m target) (ha : a ∈ m.attributes)
    (hb : targetAttribute m target a.name = some b) (hnan : mem i a.name = nanCell a.ctype)
    (hv : parseValue a.ctype (nanCell a.ctype) (ts ++ rest) = .ok (c.cell i a.name, rest)) :
    parseAttribute mem i b (ts ++ rest) = .ok (put mem i a.name (c.cell i a.name), rest) := by
  obtain ⟨h1, h2, -⟩ := targetAttribute_some hm ht hb
  have : b = a := attribute_unique hm h2 ha h1
  subst this
  unfold parseAttribute
  rw [hnan, hv]

theorem parseList_read (hg : Transport g) {m : MetaComponent} {target : Target} {c : Component} {i : Nat}
    (hm : (m.attributes.map MetaAttribute.name).Nodup) (ht : Suitable m target) : ∀ {l : List MetaAttribute} {mem : Memory} (rest : List Token),
    (l.map MetaAttribute.name).Nodup → (∀ a ∈ l, a ∈ m.attributes) → (∀ a ∈ l, Typed a.ctype (c.cell i a.name)) →
    (∀ a ∈ l, (targetAttribute m target a.name).isSome = true → mem i a.name = nanCell a.ctype) →
    parseList m target i l mem (l.flatMap (tInList g c i) ++ rest) = .ok (readInto m target c i l mem, rest)
  | [], mem, rest, _, _, _, _ => rfl
  | a :: l, mem, rest, h1, h2, h3, h4 => by
    rw [List.flatMap_cons, List.append_assoc]
    have hl := (List.nodup_cons.mp h1)
    cases hb : targetAttribute m target a.name with
    | none =>
      rw [parseList, hb]
      simp only [parseSkip_objs (tInList_objs hg c i a)]
      rw [parseList_read hg hm ht rest hl.2 (fun b hb => h2 b (List.mem_cons_of_mem _ hb)) (fun b hb => h3 b (List.mem_cons_of_mem _ hb))
        (fun b hb => h4 b (List.mem_cons_of_mem _ hb)), readInto, hb]
      simp
    | some b =>
      rw [parseList, hb]
      have := parseAttribute_read (rest := l.flatMap (tInList g c i) ++ rest) hm ht (h2 a (by simp)) hb (h4 a (by simp) (by rw [hb]; rfl))
        (parseValue_inList hg (h3 a (by simp)) _)
      simp only [this]
      rw [parseList_read hg hm ht rest hl.2 (fun b hb => h2 b (List.mem_cons_of_mem _ hb)) (fun b hb => h3 b (List.mem_cons_of_mem _ hb)) ?_,
        readInto, hb]
      · simp
      · intro b hb2 hb3
        rw [put, if_neg]
        · exact h4 b (List.mem_cons_of_mem _ hb2) hb3
        · rintro ⟨-, h5⟩
          exact hl.1 (h5 ▸ List.mem_map.mpr ⟨b, hb2, rfl⟩)

theorem parseMapElement_read (hg : Transport g) {m : MetaComponent} {target : Target} {c : Component} {i : Nat}
    (hm : (m.attributes.map MetaAttribute.name).Nodup) (ht : Suitable m target) : ∀ {l : List MetaAttribute} {mem : Memory} (rest : List Token),
    (l.map MetaAttribute.name).Nodup → (∀ a ∈ l, a ∈ m.attributes) → (∀ a ∈ l, Typed a.ctype (c.cell i a.name)) →
    (∀ a ∈ l, isNan a.ctype (c.cell i a.name) = false) →
    (∀ a ∈ l, (targetAttribute m target a.name).isSome = true → mem i a.name = nanCell a.ctype) →
    parseMapElement m target i l.length mem ((l.flatMap fun a => .str a.name :: tCell g (c.cell i a.name)) ++ rest) =
      .ok (readInto m target c i l mem, rest)
  | [], mem, rest, _, _, _, _, _ => rfl
  | a :: l, mem, rest, h1, h2, h3, h5, h4 => by
    rw [List.flatMap_cons, List.append_assoc, List.cons_append, List.length_cons]
    have hl := (List.nodup_cons.mp h1)
    cases hb : targetAttribute m target a.name with
    | none =>
      rw [parseMapElement]
      simp only [parseString, hb, parseSkip_objs (tCell_objs hg _)]
      rw [parseMapElement_read hg hm ht rest hl.2 (fun b hb => h2 b (List.mem_cons_of_mem _ hb)) (fun b hb => h3 b (List.mem_cons_of_mem _ hb))
        (fun b hb => h5 b (List.mem_cons_of_mem _ hb)) (fun b hb => h4 b (List.mem_cons_of_mem _ hb)), readInto, hb]
      simp
    | some b =>
      rw [parseMapElement]
      have := parseAttribute_read (rest := (l.flatMap fun a => .str a.name :: tCell g (c.cell i a.name)) ++ rest) hm ht (h2 a (by simp)) hb
        (h4 a (by simp) (by rw [hb]; rfl)) (parseValue_read hg (h3 a (by simp)) (h5 a (by simp)) _)
      simp only [parseString, hb, this]
      rw [parseMapElement_read hg hm ht rest hl.2 (fun b hb => h2 b (List.mem_cons_of_mem _ hb)) (fun b hb => h3 b (List.mem_cons_of_mem _ hb))
        (fun b hb => h5 b (List.mem_cons_of_mem _ hb)) ?_, readInto, hb]
      · simp
      · intro b hb2 hb3
        rw [put, if_neg]
        · exact h4 b (List.mem_cons_of_mem _ hb2) hb3
        · rintro ⟨-, h6⟩
          exact hl.1 (h6 ▸ List.mem_map.mpr ⟨b, hb2, rfl⟩)

/-! ## The memory while it is filled -/

open Classical in
/-- The memory when the elements up to `i` have been read. -/
noncomputable def fill (m : MetaComponent) (target : Target) (c : Component) (mem0 : Memory) (i : Nat) : Memory := fun j s =>
  match targetAttribute m target s with
  | some a => if j < i then value c j a else mem0 j s
  | none => mem0 j s

/-- The attributes `l` are all of which the element `i` has a value. -/
structure Complete (c : Component) (i : Nat) (l : List MetaAttribute) : Prop where
  nodup : (l.map MetaAttribute.name).Nodup
  sub : ∀ a ∈ l, a ∈ c.component.attributes
  has : ∀ a ∈ l, Has c a
  rest : ∀ a ∈ c.component.attributes, a ∉ l → value c i a = nanCell a.ctype

theorem readInto_fill {m : MetaComponent} {target : Target} {c : Component} {mem0 : Memory} {i : Nat} {l : List MetaAttribute}
    (hm : (m.attributes.map MetaAttribute.name).Nodup) (ht : Suitable m target) (hc : c.component = m) (hl : Complete c i l)
    (hnan : ∀ s a, targetAttribute m target s = some a → mem0 i s = nanCell a.ctype) :
    readInto m target c i l (fill m target c mem0 i) = fill m target c mem0 (i + 1) := by
  funext j s
  rw [readInto_apply]
  unfold fill
  cases ha : targetAttribute m target s with
  | none => simp
  | some a =>
    obtain ⟨h1, h2, -⟩ := targetAttribute_some hm ht ha
    simp only [Option.isSome_some, and_true]
    rcases Nat.lt_trichotomy j i with hj | hj | hj
    · rw [if_neg (by omega), if_pos hj, if_pos (by omega)]
    · subst hj
      rw [if_pos (Nat.lt_succ_self j), if_neg (Nat.lt_irrefl j)]
      subst hc
      by_cases h3 : ∃ b ∈ l, b.name = s
      · obtain ⟨b, hb, hbs⟩ := h3
        have : b = a := attribute_unique hm (hl.sub b hb) h2 (hbs.trans h1.symm)
        subst this
        rw [if_pos ⟨rfl, b, hb, hbs⟩, value, if_pos (hl.has b hb), h1]
      · rw [if_neg (by rintro ⟨-, h4⟩; exact h3 h4), hnan s a ha, hl.rest a h2 (fun h4 => h3 ⟨a, h4, h1⟩)]
    · rw [if_neg (by omega), if_neg (by omega), if_neg (by omega)]

/-- The attributes that the serialiser packs for an element. -/
theorem hasColumn_iff {c : Component} (hcol : ∀ l, c.columns = some l → (l.map MetaAttribute.name).Nodup ∧ ∀ a ∈ l, a ∈ c.component.attributes)
    (hm : (c.component.attributes.map MetaAttribute.name).Nodup) {a : MetaAttribute} (ha : a ∈ c.component.attributes) :
    hasColumn c a = true ↔ Has c a := by
  unfold hasColumn Has
  cases h : c.columns with
  | none => simp
  | some l =>
    simp only [List.any_eq_true, beq_iff_eq, Option.some.injEq]
    constructor
    · rintro ⟨b, hb, hn⟩ _ rfl
      rwa [attribute_unique hm ha ((hcol l h).2 b hb) hn.symm]
    · intro h1
      exact ⟨a, h1 l rfl, rfl⟩

theorem valid_complete {c : Component} (hcol : ∀ l, c.columns = some l → (l.map MetaAttribute.name).Nodup ∧ ∀ a ∈ l, a ∈ c.component.attributes)
    (hm : (c.component.attributes.map MetaAttribute.name).Nodup) {i : Nat}
    (hty : ∀ a ∈ c.component.attributes, Has c a → Typed a.ctype (c.cell i a.name)) : Complete c i (valid c i) := by
  have hsub : ∀ a ∈ columnsOf c, a ∈ c.component.attributes ∧ Has c a := by
    intro a ha
    unfold columnsOf at ha
    cases h : c.columns with
    | none =>
      rw [h] at ha
      exact ⟨ha, fun l hl => by rw [h] at hl; cases hl⟩
    | some l =>
      rw [h] at ha
      refine ⟨(hcol l h).2 a ha, fun l' hl => ?_⟩
      rw [h] at hl
      cases hl
      exact ha
  refine ⟨?_, fun a ha => (hsub a (List.mem_filter.mp ha).1).1, fun a ha => (hsub a (List.mem_filter.mp ha).1).2, fun a ha hna => ?_⟩
  · refine List.Nodup.sublist (List.Sublist.map _ List.filter_sublist) ?_
    unfold columnsOf
    cases h : c.columns with
    | none => exact hm
    | some l => exact (hcol l h).1
  · unfold value
    split
    · rename_i hh
      refine isNan_eq (hty a ha hh) ?_
      by_contra hn
      refine hna (List.mem_filter.mpr ⟨?_, by simpa using hn⟩)
      unfold columnsOf
      cases h : c.columns with
      | none => exact ha
      | some l => exact hh l h
    · rfl

theorem listed_complete {v : View} (hcol : ∀ l, v.source.columns = some l → (l.map MetaAttribute.name).Nodup ∧ ∀ a ∈ l, a ∈ v.source.component.attributes)
    (hm : (v.source.component.attributes.map MetaAttribute.name).Nodup) {k : Nat} (hk : k < v.size)
    (hty : ∀ a ∈ v.source.component.attributes, Has v.source a → Typed a.ctype (v.source.cell (v.idx + k) a.name)) :
    Complete v.source (v.idx + k) (listed v) := by
  refine ⟨List.Nodup.sublist (List.Sublist.map _ List.filter_sublist) hm, fun a ha => (List.mem_filter.mp ha).1, fun a ha => ?_, fun a ha hna => ?_⟩
  · have := (List.mem_filter.mp ha)
    rw [Bool.and_eq_true] at this
    exact (hasColumn_iff hcol hm this.1).mp this.2.1
  · unfold value
    split
    · rename_i hh
      refine isNan_eq (hty a ha hh) ?_
      by_contra hn
      refine hna (List.mem_filter.mpr ⟨ha, ?_⟩)
      rw [(hasColumn_iff hcol hm ha).mpr hh, Bool.true_and, Bool.not_eq_true']
      unfold allNan
      rw [List.all_eq_false]
      exact ⟨k, List.mem_range.mpr hk, hn⟩
    · rfl

end PGM.Serial
