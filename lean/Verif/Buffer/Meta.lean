import Verif.Buffer.Memory
import Verif.Buffer.Tables

/-!
# C57: the meta data describe the buffers
-/

namespace PGM.Buffer

open PGM.CApi (Exn Handle callWithCatch defaultHandler)

/-! ## Specification -/

/-- The member names are different, and the attributes are the members. -/
def Struct.Ok (S : Struct) : Prop := (S.members.map Prod.fst).Nodup ∧ S.attributes = S.members.map Prod.fst

/-! ## C57: layout -/

theorem attr_mem {name : String} {S : Struct} {a : Attr} (ha : a ∈ (metaComponent name S).attributes) :
    ((a.name, a.ctype), a.offset) ∈ place 0 S.members ∧ a.componentSize = recordSize S.members := by
  obtain ⟨x, _, hx⟩ := List.mem_filterMap.mp ha
  obtain ⟨h1, h2, h3⟩ := metaAttribute_some hx
  rw [h2]
  exact ⟨h1, h3⟩

theorem pairwise_either {α : Type} {R : α → α → Prop} {l : List α} (h : l.Pairwise R) {x y : α} (hx : x ∈ l) (hy : y ∈ l) : x = y ∨ R x y ∨ R y x := by
  induction l with
  | nil => cases hx
  | cons z l ih =>
    obtain ⟨h1, h2⟩ := List.pairwise_cons.mp h
    rcases List.mem_cons.mp hx with e' | hx
    · rcases List.mem_cons.mp hy with e | hy
      · exact Or.inl (e'.trans e.symm)
      · exact Or.inr (Or.inl (e' ▸ h1 y hy))
    · rcases List.mem_cons.mp hy with e | hy
      · exact Or.inr (Or.inr (e ▸ h1 x hx))
      · exact ih h2 hx hy

/-- **C57, layout.** In the record of a component every attribute is inside the record and aligned, and different attributes do not overlap; the size of
the record is a multiple of its alignment, so that the same holds in every element of a buffer. -/
theorem attribute_layout (name : String) (S : Struct) :
    let c := metaComponent name S
    c.alignment ∣ c.size ∧
    (∀ a ∈ c.attributes, a.componentSize = c.size ∧ a.offset + a.ctype.size ≤ c.size ∧ a.ctype.align ∣ a.offset ∧ a.ctype.align ∣ c.alignment) ∧
    ∀ a ∈ c.attributes, ∀ b ∈ c.attributes, a.name ≠ b.name → a.offset + a.ctype.size ≤ b.offset ∨ b.offset + b.ctype.size ≤ a.offset := by
  refine ⟨recordAlign_dvd_size _, fun a ha => ?_, fun a ha b hb hne => ?_⟩
  · obtain ⟨h1, h2⟩ := attr_mem ha
    obtain ⟨_, g2, g3, g4⟩ := place_bounds h1
    exact ⟨h2, g2.trans (ending_le_size _), g3, align_dvd_record g4⟩
  · obtain ⟨h1, _⟩ := attr_mem ha
    obtain ⟨h2, _⟩ := attr_mem hb
    rcases pairwise_either (place_sorted 0 S.members) h1 h2 with h | h | h
    · exact absurd (congrArg (fun x => x.1.1) h) hne
    · exact Or.inl h
    · exact Or.inr h

/-- Every member is an attribute with its name. -/
theorem attributes_complete (name : String) {S : Struct} (hS : S.Ok) :
    (metaComponent name S).attributes.map (fun a => (a.name, a.ctype)) = S.members := by
  have h : ∀ l : List (Member × Nat), (∀ x ∈ l, x ∈ place 0 S.members) →
      (l.filterMap fun x => metaAttribute S.members x.1.1).map (fun a => (a.name, a.ctype)) = l.map fun x => x.1 := by
    intro l
    induction l with
    | nil => intro _; rfl
    | cons x l ih =>
      intro hl
      rw [List.filterMap_cons, metaAttribute_member hS.1 (hl x (by simp))]
      simp only [List.map_cons, ih fun y hy => hl y (by simp [hy])]
  have e : S.attributes.filterMap (metaAttribute S.members) = (place 0 S.members).filterMap fun x => metaAttribute S.members x.1.1 := by
    rw [hS.2, ← congrArg (List.map Prod.fst) (place_names 0 S.members), List.map_map, List.filterMap_map]
    rfl
  show (S.attributes.filterMap (metaAttribute S.members)).map _ = _
  rw [e, h _ fun x hx => hx, place_names]

/-- **C57, base records.** If the members of a base record are the first members, then every attribute of the base record is an attribute with the same type
at the same offset, and the alignment suffices: a pointer to the record may be used as a pointer to the base record. -/
theorem base_view {S B : Struct} (hS : S.Ok) (hB : B.members <+: S.members) (name name' : String) :
    (metaComponent name' B).alignment ∣ (metaComponent name S).alignment ∧
    ∀ b ∈ (metaComponent name' B).attributes, ∃ a ∈ (metaComponent name S).attributes, a.name = b.name ∧ a.ctype = b.ctype ∧ a.offset = b.offset := by
  refine ⟨recordAlign_prefix hB, fun b hb => ?_⟩
  obtain ⟨h1, _⟩ := attr_mem hb
  have h2 : ((b.name, b.ctype), b.offset) ∈ place 0 S.members := by
    obtain ⟨t, ht⟩ := hB
    rw [← ht, place_append]
    exact List.mem_append_left _ h1
  have h3 := metaAttribute_member hS.1 h2
  refine ⟨_, List.mem_filterMap.mpr ⟨b.name, ?_, h3⟩, rfl, rfl, rfl⟩
  rw [hS.2]
  exact List.mem_map.mpr ⟨_, (place_bounds h2).2.2.2, rfl⟩

/-! ## C57: the tables -/

/-- What is checked of every record. -/
def Struct.checked (S : Struct) : Bool :=
  decide (S.members.map Prod.fst).Nodup && decide (S.attributes = S.members.map Prod.fst) && S.bases.all fun b => b.isPrefixOf S.members

theorem tables_checked : Tables.structs.all Struct.checked = true := by decide +kernel

/-- **C57, all records.** Every record of every component in every dataset satisfies the assumptions of the theorems here, and all its base records are
prefixes. -/
theorem tables_ok : ∀ S ∈ Tables.structs, S.Ok ∧ ∀ b ∈ S.bases, b <+: S.members := by
  intro S hS
  have := List.all_eq_true.mp tables_checked S hS
  unfold Struct.checked at this
  simp only [Bool.and_eq_true, decide_eq_true_eq, List.all_eq_true] at this
  exact ⟨this.1, fun b hb => List.isPrefixOf_iff_prefix.mp (this.2 b hb)⟩

/-- Every component of the meta data comes from such a record. -/
theorem metaData_struct {d : Dataset} (hd : d ∈ Tables.metaData) {c : Component} (hc : c ∈ d.components) :
    ∃ S ∈ Tables.structs, c = metaComponent c.name S := by
  obtain ⟨g, hg, rfl⟩ := List.mem_map.mp hd
  obtain ⟨r, hr, rfl⟩ := List.mem_map.mp hc
  exact ⟨g.2 r, List.mem_flatMap.mpr ⟨g, hg, List.mem_map.mpr ⟨r, hr, rfl⟩⟩, rfl⟩

/-! ## C57: look-up -/

theorem byName_spec {α : Type} {name : α → String} {kind wanted : String} {l : List α} (hn : (l.map name).Nodup) :
    (∀ x, byName name kind wanted l = .ok x ↔ x ∈ l ∧ name x = wanted) ∧
    ((∃ e, byName name kind wanted l = .error (.std e)) ↔ wanted ∉ l.map name) := by
  unfold byName
  cases h : l.find? fun x => name x == wanted with
  | none =>
    have h := List.find?_eq_none.mp h
    refine ⟨fun x => ⟨fun hx => absurd hx (by simp), fun hx => absurd (h x hx.1) (by simp [hx.2])⟩, ⟨fun _ hw => ?_, fun _ => ⟨_, rfl⟩⟩⟩
    obtain ⟨x, hx, e⟩ := List.mem_map.mp hw
    exact h x hx (by simp [e])
  | some y =>
    have h1 := List.mem_of_find?_eq_some h
    have h2 : name y = wanted := by simpa using List.find?_some h
    refine ⟨fun x => ⟨fun hx => ?_, fun hx => ?_⟩, ⟨fun hx => ?_, fun hw => absurd (List.mem_map.mpr ⟨y, h1, h2⟩) hw⟩⟩
    · injection hx with hx
      subst hx
      exact ⟨h1, h2⟩
    · rw [List.inj_on_of_nodup_map hn h1 hx.1 (h2.trans hx.2.symm)]
    · obtain ⟨e, hx⟩ := hx
      exact absurd hx (by simp)

theorem names_unique : (Tables.metaData.map Dataset.name).Nodup ∧ ∀ d ∈ Tables.metaData, (d.components.map Component.name).Nodup := by
  have h : (Tables.components.map Tables.Row.name).Nodup := by decide +kernel
  refine ⟨by decide +kernel, fun d hd => ?_⟩
  obtain ⟨g, _, rfl⟩ := List.mem_map.mp hd
  show ((Tables.components.map fun r => metaComponent r.name (g.2 r)).map Component.name).Nodup
  rw [List.map_map]
  exact h

theorem attribute_names {d : Dataset} (hd : d ∈ Tables.metaData) {c : Component} (hc : c ∈ d.components) : (c.attributes.map Attr.name).Nodup := by
  obtain ⟨S, hS, e⟩ := metaData_struct hd hc
  have hok := (tables_ok S hS).1
  have h := congrArg (List.map Prod.fst) (attributes_complete c.name hok)
  rw [List.map_map, ← e] at h
  have : c.attributes.map Attr.name = S.members.map Prod.fst := h
  rw [this]
  exact hok.1

theorem lookup_error {α : Type} (h : Handle) (msg : String) :
    ∃ msg', callWithCatch (some h) (Except.error (Exn.std msg)) rangedHandler (none : Option α) = (none, some { errCode := 1, errMsg := msg' }) := by
  by_cases e : Exn.std msg = nullError
  · refine ⟨msg, ?_⟩
    simp only [callWithCatch, Option.map_some, rangedHandler, if_pos e]
    rfl
  · refine ⟨msg ++ "\n You supplied wrong name and/or index!\n", ?_⟩
    simp only [callWithCatch, Option.map_some, rangedHandler, if_neg e]
    rfl

/-- **C57, look-up by name.** The look-up of an attribute returns the one with the given names and clears the error; if there is none, it returns a null
pointer and reports an error. -/
theorem attributeByName_spec (h : Handle) (d c a : String) :
    (∀ x, (∃ D ∈ Tables.metaData, D.name = d ∧ ∃ C ∈ D.components, C.name = c ∧ x ∈ C.attributes ∧ x.name = a) →
      attributeByName Tables.metaData (some h) (some d) (some c) (some a) = (some x, some {})) ∧
    ((∀ D ∈ Tables.metaData, D.name = d → ∀ C ∈ D.components, C.name = c → ∀ x ∈ C.attributes, x.name ≠ a) →
      ∃ msg, attributeByName Tables.metaData (some h) (some d) (some c) (some a) = (none, some { errCode := 1, errMsg := msg })) := by
  constructor
  · rintro x ⟨D, hD, rfl, C, hC, rfl, hx, rfl⟩
    have e1 := ((byName_spec (kind := "dataset") names_unique.1).1 D).mpr ⟨hD, rfl⟩
    have e2 := ((byName_spec (kind := "component") (names_unique.2 D hD)).1 C).mpr ⟨hC, rfl⟩
    have e3 := ((byName_spec (kind := "attribute") (attribute_names hD hC)).1 x).mpr ⟨hx, rfl⟩
    have : findAttribute Tables.metaData (some D.name) (some C.name) (some x.name) = .ok x := by
      unfold findAttribute findComponent findDataset safeStr
      simp only [Except.bind, e1, e2, e3]
    unfold attributeByName
    rw [this]
    rfl
  · intro hno
    have : ∃ msg, findAttribute Tables.metaData (some d) (some c) (some a) = .error (.std msg) := by
      by_cases h1 : d ∈ Tables.metaData.map Dataset.name
      · obtain ⟨D, hD, rfl⟩ := List.mem_map.mp h1
        have e1 := ((byName_spec (kind := "dataset") names_unique.1).1 D).mpr ⟨hD, rfl⟩
        by_cases h2 : c ∈ D.components.map Component.name
        · obtain ⟨C, hC, rfl⟩ := List.mem_map.mp h2
          have e2 := ((byName_spec (kind := "component") (names_unique.2 D hD)).1 C).mpr ⟨hC, rfl⟩
          obtain ⟨msg, e3⟩ := (byName_spec (kind := "attribute") (wanted := a) (attribute_names hD hC)).2.mpr fun hm => by
            obtain ⟨x, hx, e⟩ := List.mem_map.mp hm
            exact hno D hD rfl C hC rfl x hx e
          refine ⟨msg, ?_⟩
          unfold findAttribute findComponent findDataset safeStr
          simp only [Except.bind, e1, e2, e3]
        · obtain ⟨msg, e2⟩ := (byName_spec (kind := "component") (names_unique.2 D hD)).2.mpr h2
          refine ⟨msg, ?_⟩
          unfold findAttribute findComponent findDataset safeStr
          simp only [Except.bind, e1, e2]
      · obtain ⟨msg, e1⟩ := (byName_spec (kind := "dataset") names_unique.1).2.mpr h1
        refine ⟨msg, ?_⟩
        unfold findAttribute findComponent findDataset safeStr
        simp only [Except.bind, e1]
    obtain ⟨msg, e⟩ := this
    unfold attributeByName
    rw [e]
    exact lookup_error h msg

/-- **C57, look-up of components by name.** -/
theorem componentByName_spec (h : Handle) (d c : String) :
    (∀ C, (∃ D ∈ Tables.metaData, D.name = d ∧ C ∈ D.components ∧ C.name = c) →
      componentByName Tables.metaData (some h) (some d) (some c) = (some C, some {})) ∧
    ((∀ D ∈ Tables.metaData, D.name = d → ∀ C ∈ D.components, C.name ≠ c) →
      ∃ msg, componentByName Tables.metaData (some h) (some d) (some c) = (none, some { errCode := 1, errMsg := msg })) := by
  constructor
  · rintro C ⟨D, hD, rfl, hC, rfl⟩
    have e1 := ((byName_spec (kind := "dataset") names_unique.1).1 D).mpr ⟨hD, rfl⟩
    have e2 := ((byName_spec (kind := "component") (names_unique.2 D hD)).1 C).mpr ⟨hC, rfl⟩
    unfold componentByName findComponent findDataset safeStr
    simp only [Except.bind, e1, e2]
    rfl
  · intro hno
    have : ∃ msg, findComponent Tables.metaData (some d) (some c) = .error (.std msg) := by
      by_cases h1 : d ∈ Tables.metaData.map Dataset.name
      · obtain ⟨D, hD, rfl⟩ := List.mem_map.mp h1
        have e1 := ((byName_spec (kind := "dataset") names_unique.1).1 D).mpr ⟨hD, rfl⟩
        obtain ⟨msg, e2⟩ := (byName_spec (kind := "component") (wanted := c) (names_unique.2 D hD)).2.mpr fun hm => by
          obtain ⟨C, hC, e⟩ := List.mem_map.mp hm
          exact hno D hD rfl C hC e
        refine ⟨msg, ?_⟩
        unfold findComponent findDataset safeStr
        simp only [Except.bind, e1, e2]
      · obtain ⟨msg, e1⟩ := (byName_spec (kind := "dataset") names_unique.1).2.mpr h1
        refine ⟨msg, ?_⟩
        unfold findComponent findDataset safeStr
        simp only [Except.bind, e1]
    obtain ⟨msg, e⟩ := this
    unfold componentByName
    rw [e]
    exact lookup_error h msg

/-- **C57, null pointers.** A name that is a null pointer is reported. -/
theorem null_name (h : Handle) (d c a : Option String) (hn : d = none ∨ (c = none ∧ ∃ D ∈ Tables.metaData, d = some D.name)) :
    ∃ msg, attributeByName Tables.metaData (some h) d c a = (none, some { errCode := 1, errMsg := msg }) := by
  have : findAttribute Tables.metaData d c a = .error nullError := by
    unfold findAttribute findComponent findDataset safeStr
    rcases hn with rfl | ⟨rfl, D, hD, rfl⟩
    · rfl
    · have e1 := ((byName_spec (kind := "dataset") names_unique.1).1 D).mpr ⟨hD, rfl⟩
      simp only [Except.bind, e1]
  unfold attributeByName
  rw [this]
  exact lookup_error h _

/-- **C57, look-up by index.** Indices from zero on give the entries in order; all others a null pointer and an error. -/
theorem byIdx_spec {α : Type} (h : Handle) (l : List α) (idx : Int) :
    (∀ k : Nat, idx = k → k < l.length → byIdx (some h) idx l = (l[k]?, some {})) ∧
    (idx < 0 ∨ (l.length : Int) ≤ idx → ∃ msg, byIdx (some h) idx l = (none, some { errCode := 1, errMsg := msg })) := by
  constructor
  · rintro k rfl hk
    unfold byIdx
    rw [if_neg (by omega)]
    rfl
  · intro hi
    unfold byIdx
    rw [if_pos (by omega)]
    exact lookup_error h _

/-- The hypotheses hold: the rated voltage of nodes has offset 8 in a record of 16 bytes. -/
example : attributeByName Tables.metaData (some {}) (some "input") (some "node") (some "u_rated") = (some ⟨"u_rated", .double, 8, 16⟩, some {}) := by
  decide +kernel

end PGM.Buffer
