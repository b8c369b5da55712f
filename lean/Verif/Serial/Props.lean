import Verif.Serial.JsonMessage
import Mathlib.Data.List.Perm.Subperm
import Mathlib.Tactic.IntervalCases

/-! # Serialisation: properties (C37) -/

namespace PGM.Serial

/-- Whatever is serialised can be deserialised behind a transport that may replace floats by the integers of the same value. -/
theorem restores {g : Token → Token} (hg : Transport g) {M : List MetaDataset} {D : Dataset} {compact : Bool} {ts : List Token}
    (hM : (M.map MetaDataset.name).Nodup) (hD : D.dataset ∈ M) (hW : WellFormed D) (hs : serialize D compact = ts.map some) :
    Restores M D (ts.map g) := by
  obtain ⟨d, h1, h2⟩ := preParse_message hg (compact := compact) hM hD hW
  rw [arrives hg hs]
  refine ⟨_, h2, rfl, rfl, rfl, fun name => ?_, fun target mem hsuit => ?_⟩
  · constructor
    · rintro ⟨x, hx, rfl⟩
      obtain ⟨c, hc, ht, rfl⟩ := (mem_announce h1 hW).mp hx
      exact ⟨c, hc, rfl, ht⟩
    · rintro ⟨c, hc, rfl, ht⟩
      exact ⟨_, (mem_announce h1 hW).mpr ⟨c, hc, ht, rfl⟩, rfl⟩
  · obtain ⟨Rs, h3, h4⟩ := parseAll_forall (P := ⟨D.dataset, D.isBatch, D.batchSize, sentAttributes D compact, announce D d⟩) (target := target)
      (mem := mem) (l := announce D d)
      (Q := fun x R => ∃ c ∈ D.components, 0 < c.total ∧ x = countComponent d c.component ∧ R.component = c.component ∧ R.total = c.total ∧
            ((target c.component.name).given = true →
              Described D.batchSize R ∧ ∀ s < D.batchSize, ∀ f n, Part c s f n → Part R s f n) ∧
            (∀ i : Nat, i < c.total → ∀ a, Wanted c.component (target c.component.name) a → R.cell i a.name = value c i a) ∧
            (∀ (i : Nat) (s : String), c.total ≤ i ∨ (∀ a, Wanted c.component (target c.component.name) a → a.name ≠ s) →
              R.cell i s = mem c.component.name i s))
      (fun x hx => by
        obtain ⟨c, hc, ht, rfl⟩ := (mem_announce h1 hW).mp hx
        obtain ⟨R, e1, e2, e3, e4, e5, e6⟩ := parseTo_read hg h1 hW hc ht
          (P := ⟨D.dataset, D.isBatch, D.batchSize, sentAttributes D compact, announce D d⟩) rfl
          (hsuit c.component (hW.member c hc)) (mem c.component.name)
        exact ⟨R, e1, c, hc, ht, rfl, e2, e3, e4, e5, e6⟩)
    refine ⟨Rs, h3, fun R hR => ?_, fun c hc ht => ?_⟩
    · obtain ⟨x, -, c, hc, ht, -, h5, -⟩ := forall₂_right h4 R hR
      exact ⟨c, hc, ht, h5⟩
    · obtain ⟨R, hR, c', hc', ht', h5, h6⟩ := forall₂_left h4 _ ((mem_announce h1 hW).mpr ⟨c, hc, ht, rfl⟩)
      have h7 : c.component = c'.component := congrArg Announced.component h5
      have h8 : c = c' := component_unique hW hc hc' (by rw [h7])
      subst h8
      exact ⟨R, hR, h6⟩

/-- C37, msgpack: whatever is serialised gives back the same dataset, for row-based or columnar sources and targets, compact or verbose lists, single
datasets or batches. -/
theorem round_trip {M : List MetaDataset} {D : Dataset} {compact : Bool} {ts : List Token} (hM : (M.map MetaDataset.name).Nodup)
    (hD : D.dataset ∈ M) (hW : WellFormed D) (hs : serialize D compact = ts.map some) : Restores M D ts := by
  have := restores (g := id) (fun t => Or.inl rfl) hM hD hW hs
  rwa [List.map_id] at this

/-- C37, JSON: the text that is made of the message, with any indentation, is read back as a message that gives back the same dataset, whichever floats
have a text without point and exponent, provided these are integers. No name of a dataset or of an attribute is the text of an infinity. -/
theorem round_trip_json {plain : ℚ → Bool} (hp : ∀ q, plain q = true → q.den = 1) {M : List MetaDataset} {D : Dataset} {compact : Bool}
    {ts : List Token} (hM : (M.map MetaDataset.name).Nodup) (hD : D.dataset ∈ M) (hW : WellFormed D) (hname : NotANumber D.dataset.name)
    (hattr : ∀ c ∈ D.components, ∀ a ∈ c.component.attributes, NotANumber a.name) (hs : serialize D compact = ts.map some) (indent : Int) :
    ∃ ts', fromJson plain (toJson indent D.isBatch ts) = .ok ts' ∧ Restores M D ts' :=
  ⟨_, serialized_json hW hname hattr hs indent, restores (viaJson_transport hp) hM hD hW hs⟩

theorem attributesMap_length {D : Dataset} (hW : WellFormed D) : (attributesMap D).length ≤ D.components.length := by
  rw [← List.length_map (f := Prod.fst) (as := attributesMap D), ← List.length_map (f := fun c : Component => c.component.name) (as := D.components)]
  refine (List.Nodup.subperm (attributesMap_nodup hW) fun s hs => ?_).length_le
  obtain ⟨x, hx, rfl⟩ := List.mem_map.mp hs
  obtain ⟨c, hc, -, rfl⟩ := (mem_attributesMap hW).mp hx
  exact List.mem_map.mpr ⟨c, hc, rfl⟩

/-- The serialisation throws only if a number does not fit in 32 bits: of scenarios, components, elements or attributes. -/
theorem serialize_succeeds {D : Dataset} (compact : Bool) (hW : WellFormed D) (h1 : D.batchSize < 2 ^ 32) (h2 : D.components.length < 2 ^ 32)
    (h3 : ∀ c ∈ D.components, c.total < 2 ^ 32) (h4 : ∀ c ∈ D.components, c.component.attributes.length < 2 ^ 32) :
    ∃ ts : List Token, serialize D compact = ts.map some := by
  have key : none ∉ serialize D compact := by
    have hv : ∀ s < D.batchSize, ∀ v ∈ views D s (s + 1), v.source ∈ D.components ∧ v.size < 2 ^ 32 := by
      intro s hs v hv
      obtain ⟨e1, e2, e3, e4⟩ := mem_views.mp hv
      refine ⟨e1, ?_⟩
      have hd := hW.divided _ e1
      have a1 := off_succ hd hs
      have a2 := off_mono hd le_rfl (s := s + 1) hs
      have a3 := off_batch hd
      have a4 := h3 _ e1
      have a5 : v.size = cnt v.source s := e3
      omega
    have hvl : ∀ s, (views D s (s + 1)).length < 2 ^ 32 := by
      intro s
      refine lt_of_le_of_lt ?_ h2
      unfold views
      refine le_trans (List.length_filter_le _ _) ?_
      rw [List.length_map]
    have hel : ∀ c ∈ D.components, ∀ i, none ∉ packElement D compact c i := by
      intro c hc i hn
      unfold packElement at hn
      split at hn
      · unfold elementInList packArray at hn
        have : (attributesOf D c.component.name).length ≤ c.component.attributes.length := by
          unfold attributesOf
          cases hl : (attributesMap D).lookup c.component.name with
          | none => simp
          | some as =>
            have hm : (c.component.name, as) ∈ attributesMap D := by
              clear hn
              generalize attributesMap D = l at hl
              induction l with
              | nil => cases hl
              | cons x l ih =>
                obtain ⟨x1, x2⟩ := x
                rw [List.lookup_cons] at hl
                split at hl
                · rename_i he
                  rw [beq_iff_eq] at he
                  rw [he, ← Option.some.inj hl]
                  exact List.mem_cons_self
                · exact List.mem_cons_of_mem _ (ih hl)
            obtain ⟨c', hc', -, he⟩ := (mem_attributesMap hW).mp hm
            have he1 := (Prod.mk.inj he).1
            have he2 := (Prod.mk.inj he).2
            have := component_unique hW hc hc' he1
            subst this
            rw [Option.getD_some, he2]
            exact List.length_filter_le _ _
        have := h4 c hc
        rw [if_pos (by omega)] at hn
        simp at hn
      · unfold elementInDict packMap at hn
        have : (valid c i).length ≤ c.component.attributes.length := by
          unfold valid
          refine le_trans (List.length_filter_le _ _) ?_
          unfold columnsOf
          cases hcl : c.columns with
          | none => exact le_rfl
          | some l =>
            rw [Option.getD_some]
            obtain ⟨e1, e2⟩ := hW.columns c hc l hcl
            exact (List.Nodup.subperm (List.Nodup.of_map _ e1) e2).length_le
        have := h4 c hc
        rw [if_pos (by omega)] at hn
        simp at hn
    intro hn
    unfold serialize at hn
    rcases List.mem_append.mp hn with hn | hn
    · rcases List.mem_append.mp hn with hn | hn
      · simp [packRoot] at hn
      · have hal : ∀ x ∈ attributesMap D, x.2.length < 2 ^ 32 := by
          intro x hx
          obtain ⟨c, hc, -, rfl⟩ := (mem_attributesMap hW).mp hx
          exact lt_of_le_of_lt (List.length_filter_le _ _) (h4 c hc)
        have hsub : ∀ x ∈ (if compact then attributesMap D else []), x ∈ attributesMap D := by
          intro x hx
          split at hx
          · exact hx
          · cases hx
        have hml : (if compact then attributesMap D else []).length < 2 ^ 32 := by
          split
          · exact lt_of_le_of_lt (attributesMap_length hW) h2
          · simp
        unfold packAttributes packMap at hn
        simp only at hn
        rw [if_pos hml] at hn
        rcases List.mem_cons.mp hn with hn | hn
        · cases hn
        rcases List.mem_cons.mp hn with hn | hn
        · cases hn
        obtain ⟨x, hx, hn⟩ := List.mem_flatMap.mp hn
        unfold packArray at hn
        rw [if_pos (hal x (hsub x hx))] at hn
        simp at hn
    · unfold packData at hn
      rcases List.mem_cons.mp hn with hn | hn
      · cases hn
      · rcases List.mem_append.mp hn with hn | hn
        · split at hn
          · unfold packArray at hn
            rw [if_pos h1] at hn
            simp at hn
          · cases hn
        · obtain ⟨vs, hvs, hn⟩ := List.mem_flatMap.mp hn
          unfold scenarioViews at hvs
          obtain ⟨s, hs, rfl⟩ := List.mem_map.mp hvs
          rw [List.mem_range] at hs
          unfold packScenario packMap at hn
          rw [if_pos (hvl s)] at hn
          rcases List.mem_cons.mp hn with hn | hn
          · cases hn
          · obtain ⟨v, hvv, hn⟩ := List.mem_flatMap.mp hn
            obtain ⟨e1, e2⟩ := hv s hs v hvv
            unfold packComponent packArray at hn
            rw [if_pos e2] at hn
            rcases List.mem_cons.mp hn with hn | hn
            · cases hn
            rcases List.mem_cons.mp hn with hn | hn
            · cases hn
            obtain ⟨k, -, hn⟩ := List.mem_flatMap.mp hn
            exact hel _ e1 _ hn
  generalize serialize D compact = l at key
  induction l with
  | nil => exact ⟨[], rfl⟩
  | cons x l ih =>
    obtain ⟨ts, h⟩ := ih fun h => key (List.mem_cons_of_mem _ h)
    cases x with
    | none => exact absurd List.mem_cons_self key
    | some t => exact ⟨t :: ts, by rw [h, List.map_cons]⟩

/-! ## A batch with three scenarios, one of them empty, with every type of attribute -/

namespace Example

def metaNode : MetaComponent := ⟨"node", [⟨"id", .int32⟩, ⟨"u", .double⟩]⟩
def metaSensor : MetaComponent := ⟨"sensor", [⟨"id", .int32⟩, ⟨"status", .int8⟩, ⟨"p", .double3⟩]⟩
def metaInput : MetaDataset := ⟨"input", [metaNode, metaSensor]⟩
def metaUpdate : MetaDataset := ⟨"update", [metaNode, metaSensor]⟩

/-- A columnar buffer with an index pointer (2, 0 and 1 elements), without `status`. -/
def sensors : Component := ⟨metaSensor, -1, 3, [0, 2, 2, 3], some [⟨"p", .double3⟩, ⟨"id", .int32⟩], fun i s =>
  if s = "id" then .int (10 + i) else if i = 1 then .three none none none else .three (some (.fin i)) none (some .inf)⟩

/-- A row-based buffer with one element per scenario; `id` is unset everywhere. -/
def nodes : Component := ⟨metaNode, 1, 3, [], none, fun i s => if s = "id" then .int (-2147483648) else if i = 0 then .real none else .real (some (.fin (i / 2)))⟩

def data : Dataset := ⟨metaUpdate, true, 3, [sensors, nodes]⟩

theorem data_wellFormed : WellFormed data where
  single := by intro h; cases h
  names := by decide
  attributes := by decide
  member := by decide
  distinct := by decide
  divided := by
    intro c hc
    simp only [data, List.mem_cons, List.not_mem_nil, or_false] at hc
    rcases hc with rfl | rfl
    · refine Or.inr ⟨by decide, [0, 2, 2, 3], rfl, by decide, rfl, rfl, fun i hi => ?_⟩
      simp only [data] at hi
      interval_cases i
      · exact ⟨0, 2, rfl, rfl, by decide⟩
      · exact ⟨2, 2, rfl, rfl, by decide⟩
      · exact ⟨2, 3, rfl, rfl, by decide⟩
    · exact Or.inl ⟨by decide, rfl, by decide⟩
  columns := by
    intro c hc l hl
    simp only [data, List.mem_cons, List.not_mem_nil, or_false] at hc
    rcases hc with rfl | rfl
    · cases hl
      decide
    · cases hl
  typed := by
    intro c hc a ha hh i hi
    simp only [data, List.mem_cons, List.not_mem_nil, or_false] at hc
    rcases hc with rfl | rfl
    · have h1 := hh _ rfl
      simp only [List.mem_cons, List.not_mem_nil, or_false] at h1
      have hi' : (i : Int) < 3 := hi
      rcases h1 with rfl | rfl
      · have : i < 3 := by omega
        interval_cases i <;> exact trivial
      · show -2147483648 ≤ (10 + (i : Int)) ∧ (10 + (i : Int)) ≤ 2147483647
        omega
    · have hi' : (i : Int) < 3 := hi
      simp only [nodes, metaNode, List.mem_cons, List.not_mem_nil, or_false] at ha
      rcases ha with rfl | rfl
      · exact ⟨by decide, by decide⟩
      · have : i < 3 := by omega
        interval_cases i <;> exact trivial

/-- The message, in compact form. -/
def message : List Token :=
  [.map 5, .str "version", .str "1.0", .str "type", .str "update", .str "is_batch", .bool true,
    .str "attributes", .map 2, .str "node", .array 1, .str "u", .str "sensor", .array 2, .str "id", .str "p",
    .str "data", .array 3,
    .map 2, .str "sensor", .array 2, .array 2, .int 10, .array 3, .float (.fin 0), .nil, .float .inf, .array 2, .int 11, .nil,
      .str "node", .array 1, .array 1, .nil,
    .map 1, .str "node", .array 1, .array 1, .float (.fin (1 / 2)),
    .map 2, .str "sensor", .array 1, .array 2, .int 12, .array 3, .float (.fin 2), .nil, .float .inf,
      .str "node", .array 1, .array 1, .float (.fin 1)]

set_option maxRecDepth 8000 in
theorem data_message : serialize data true = message.map some := by decide +kernel

/-- The text with indentation 2 is read back; the hypotheses of `round_trip_json` hold. -/
example : ∃ ts, fromJson (fun q => q.den == 1) (toJson 2 true message) = .ok ts ∧ Restores [metaInput, metaUpdate] data ts :=
  round_trip_json (fun q h => by simpa using h) (by decide) (by decide) data_wellFormed ⟨by decide, by decide, by decide⟩
    (by
      intro c hc a ha
      simp only [data, List.mem_cons, List.not_mem_nil, or_false] at hc
      rcases hc with rfl | rfl
      · simp only [sensors, metaSensor, List.mem_cons, List.not_mem_nil, or_false] at ha
        rcases ha with rfl | rfl | rfl <;> exact ⟨by decide, by decide, by decide⟩
      · simp only [nodes, metaNode, List.mem_cons, List.not_mem_nil, or_false] at ha
        rcases ha with rfl | rfl <;> exact ⟨by decide, by decide, by decide⟩)
    data_message 2

/-- Without the condition on names the text is read back as something else: the name of an attribute in a list is a string. -/
theorem name_of_infinity : fromJson (fun q => q.den == 1) (toJson (-1) false [.map 1, .str "node", .array 1, .str "inf"]) =
    .ok [.map 1, .str "node", .array 1, .float .inf] := rfl

/-- The hypotheses of `round_trip` hold for this dataset, with a row-based target for the columnar component and a columnar target for the other. -/
example : (∃ P, preParse [metaInput, metaUpdate] message = .ok P) ∧
    (∀ m ∈ data.dataset.components, Suitable m (if m.name = "sensor" then .row else .columns [⟨"u", .double⟩])) := by
  constructor
  · obtain ⟨P, h, -⟩ := round_trip (M := [metaInput, metaUpdate]) (by decide) (by decide) data_wellFormed data_message
    exact ⟨P, h⟩
  · intro m hm
    simp only [data, metaUpdate, List.mem_cons, List.not_mem_nil, or_false] at hm
    rcases hm with rfl | rfl
    · exact ⟨by decide, by decide⟩
    · exact trivial

end Example

end PGM.Serial
