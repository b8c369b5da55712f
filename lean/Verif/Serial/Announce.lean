import Verif.Serial.Round

/-! # Serialisation: what the deserialiser announces -/

namespace PGM.Serial

variable {g : Token → Token}

theorem forall₂_right {α β : Type} {R : α → β → Prop} {l : List α} {d : List β} (h : List.Forall₂ R l d) : ∀ b ∈ d, ∃ a ∈ l, R a b := by
  induction h with
  | nil => intro b hb; cases hb
  | cons h1 _ ih =>
    intro b hb
    rcases List.mem_cons.mp hb with rfl | hb
    · exact ⟨_, by simp, h1⟩
    · obtain ⟨a, ha, h2⟩ := ih b hb
      exact ⟨a, List.mem_cons_of_mem _ ha, h2⟩

theorem forall₂_left {α β : Type} {R : α → β → Prop} {l : List α} {d : List β} (h : List.Forall₂ R l d) : ∀ a ∈ l, ∃ b ∈ d, R a b := by
  induction h with
  | nil => intro b hb; cases hb
  | cons h1 _ ih =>
    intro b hb
    rcases List.mem_cons.mp hb with rfl | hb
    · exact ⟨_, by simp, h1⟩
    · obtain ⟨a, ha, h2⟩ := ih b hb
      exact ⟨a, List.mem_cons_of_mem _ ha, h2⟩

theorem forall₂_index {α β : Type} {R : α → β → Prop} {l : List α} {d : List β} (h : List.Forall₂ R l d) :
    ∀ (k : Nat) (b : β), d[k]? = some b → ∃ a, l[k]? = some a ∧ R a b := by
  induction h with
  | nil => intro k b hb; cases hb
  | cons h1 _ ih =>
    intro k b hb
    cases k with
    | zero =>
      cases hb
      exact ⟨_, rfl, h1⟩
    | succ k => exact ih k b hb

/-- The deserialiser's notes about all scenarios. -/
abbrev Notes (g : Token → Token) (D : Dataset) (compact : Bool) (d : List (List ByteMeta)) : Prop :=
  List.Forall₂ (List.Forall₂ (Remembers g D compact)) (scenarioViews D) d

theorem Notes.index {D : Dataset} {compact : Bool} {d : List (List ByteMeta)} (h : Notes g D compact d) {s : Nat} {bs : List ByteMeta}
    (hs : d[s]? = some bs) : s < D.batchSize ∧ List.Forall₂ (Remembers g D compact) (views D s (s + 1)) bs := by
  obtain ⟨vs, h1, h2⟩ := forall₂_index h s bs hs
  unfold scenarioViews at h1
  rw [List.getElem?_map] at h1
  obtain ⟨t, h3, rfl⟩ := Option.map_eq_some_iff.mp h1
  obtain ⟨h4, h5⟩ := List.getElem?_eq_some_iff.mp h3
  rw [List.getElem_range] at h5
  rw [List.length_range] at h4
  subst h5
  exact ⟨h4, h2⟩

theorem Notes.length {D : Dataset} {compact : Bool} {d : List (List ByteMeta)} (h : Notes g D compact d) : d.length = D.batchSize := by
  rw [← List.Forall₂.length_eq h]
  simp [scenarioViews]

theorem Notes.mem {D : Dataset} {compact : Bool} {d : List (List ByteMeta)} (h : Notes g D compact d) (hW : WellFormed D) (name : String) :
    (∃ x ∈ d.flatten, x.component = name) ↔ ∃ c ∈ D.components, c.component.name = name ∧ 0 < c.total := by
  constructor
  · rintro ⟨x, hx, rfl⟩
    obtain ⟨bs, hbs, hx⟩ := List.mem_flatten.mp hx
    obtain ⟨s, hs⟩ := List.mem_iff_getElem?.mp hbs
    obtain ⟨h1, h2⟩ := h.index hs
    obtain ⟨v, hv, h3⟩ := forall₂_right h2 x hx
    obtain ⟨h4, h5, h6, h7⟩ := mem_views.mp hv
    exact ⟨v.source, h4, h3.1.symm, (total_pos (hW.divided _ h4)).mpr ⟨s, h1, by rw [h6] at h7; exact h7⟩⟩
  · rintro ⟨c, hc, rfl, ht⟩
    obtain ⟨s, h1, h2⟩ := (total_pos (hW.divided _ hc)).mp ht
    have h3 : ∃ bs, d[s]? = some bs := ⟨_, List.getElem?_eq_getElem (by rw [h.length]; exact h1)⟩
    obtain ⟨bs, h3⟩ := h3
    obtain ⟨b, hb, h4⟩ := forall₂_left (h.index h3).2 ⟨c, off c s, cnt c s⟩ (mem_views.mpr ⟨hc, rfl, rfl, h2⟩)
    exact ⟨b, List.mem_flatten.mpr ⟨bs, List.mem_of_getElem? h3, hb⟩, h4.1⟩

/-- The components that are announced. -/
def announce (D : Dataset) (d : List (List ByteMeta)) : List Announced :=
  (D.dataset.components.filter fun m => d.flatten.any fun x => x.component == m.name).map (countComponent d)

theorem mem_announce {D : Dataset} {compact : Bool} {d : List (List ByteMeta)} (h : Notes g D compact d) (hW : WellFormed D) {x : Announced} :
    x ∈ announce D d ↔ ∃ c ∈ D.components, 0 < c.total ∧ x = countComponent d c.component := by
  unfold announce
  rw [List.mem_map]
  constructor
  · rintro ⟨m, hm, rfl⟩
    obtain ⟨h1, h2⟩ := List.mem_filter.mp hm
    rw [List.any_eq_true] at h2
    obtain ⟨y, hy, h3⟩ := h2
    obtain ⟨c, hc, h4, h5⟩ := (h.mem hW m.name).mp ⟨y, hy, by simpa using h3⟩
    exact ⟨c, hc, h5, by rw [meta_unique hW (hW.member c hc) h1 h4]⟩
  · rintro ⟨c, hc, ht, rfl⟩
    obtain ⟨y, hy, h3⟩ := (h.mem hW c.component.name).mpr ⟨c, hc, rfl, ht⟩
    refine ⟨c.component, List.mem_filter.mpr ⟨hW.member c hc, List.any_eq_true.mpr ⟨y, hy, by simpa using h3⟩⟩, rfl⟩

theorem preParse_message (hg : Transport g) {M : List MetaDataset} {D : Dataset} {compact : Bool} (hM : (M.map MetaDataset.name).Nodup)
    (hD : D.dataset ∈ M) (hW : WellFormed D) :
    ∃ d, Notes g D compact d ∧
      preParse M (tRoot g D compact) = .ok ⟨D.dataset, D.isBatch, D.batchSize, sentAttributes D compact, announce D d⟩ := by
  obtain ⟨d, h1, rest, h2, h3⟩ := rootLoop_message hg compact hW.single
  refine ⟨d, h1, ?_⟩
  have hc : countData D.dataset d = .ok (announce D d) := by
    unfold countData
    rw [if_neg]
    · rfl
    · rw [Bool.not_eq_false, List.all_eq_true]
      intro x hx
      obtain ⟨c, hc, h4, -⟩ := (Notes.mem h1 hW x.component).mp ⟨x, hx, rfl⟩
      rw [List.any_eq_true]
      exact ⟨c.component, hW.member c hc, by simpa using h4⟩
  have hp : predefined D.dataset (announce D d) ((sentAttributes D compact).map fun x => (x.1, x.2.map MetaAttribute.name)) =
      .ok (sentAttributes D compact) := by
    refine predefined_names hW.names hW.attributes fun x hx => ?_
    unfold sentAttributes at hx
    split at hx
    · obtain ⟨c, hc, ht, rfl⟩ := (mem_attributesMap hW).mp hx
      refine ⟨⟨c.component, hW.member c hc, rfl, fun a ha => (List.mem_filter.mp ha).1⟩, List.any_eq_true.mpr ⟨countComponent d c.component, ?_, ?_⟩⟩
      · exact (mem_announce h1 hW).mpr ⟨c, hc, ht, rfl⟩
      · simp [countComponent]
    · cases hx
  unfold preParse
  rw [h2]
  simp only [h3]
  rw [find_by_name hM hD]
  simp only [hc, hp, Notes.length h1]

theorem bytes_index {D : Dataset} {compact : Bool} {d : List (List ByteMeta)} (h : Notes g D compact d) (hW : WellFormed D) {c : Component}
    (hc : c ∈ D.components) {s : Nat} {b : ByteMeta} (hb : (countComponent d c.component).bytes[s]? = some b) :
    s < D.batchSize ∧ b.size = cnt c s ∧ (0 < cnt c s → Remembers g D compact ⟨c, off c s, cnt c s⟩ b) ∧ (cnt c s = 0 → b.hasMap = false) := by
  unfold countComponent at hb
  simp only [List.getElem?_map] at hb
  obtain ⟨bs, h1, rfl⟩ := Option.map_eq_some_iff.mp hb
  obtain ⟨h2, h3⟩ := h.index h1
  exact ⟨h2, bytesOf_spec hW hc h3⟩

theorem bytes_sizes {D : Dataset} {compact : Bool} {d : List (List ByteMeta)} (h : Notes g D compact d) (hW : WellFormed D) {c : Component}
    (hc : c ∈ D.components) : (countComponent d c.component).bytes.map ByteMeta.size = (List.range D.batchSize).map (cnt c) := by
  have hl : (countComponent d c.component).bytes.length = D.batchSize := by
    rw [← h.length]
    simp [countComponent]
  apply List.ext_getElem?
  intro s
  rw [List.getElem?_map, List.getElem?_map]
  rcases Nat.lt_or_ge s D.batchSize with hs | hs
  · rw [List.getElem?_eq_getElem (by omega), List.getElem?_range hs]
    have := bytes_index h hW hc (List.getElem?_eq_getElem (l := (countComponent d c.component).bytes) (i := s) (by omega))
    rw [Option.map_some, Option.map_some, this.2.1]
  · rw [List.getElem?_eq_none (by omega), List.getElem?_eq_none (by simpa using hs)]
    rfl

/-- One component of the result. -/
theorem parseTo_read (hg : Transport g) {D : Dataset} {compact : Bool} {d : List (List ByteMeta)} (h : Notes g D compact d) (hW : WellFormed D)
    {c : Component} (hc : c ∈ D.components) (ht : 0 < c.total) {P : Parsed} (hP : P.attributes = sentAttributes D compact) {target : Target}
    (hsuit : Suitable c.component target) (mem : Memory) :
    ∃ R, parseTo P (countComponent d c.component) target mem = .ok R ∧ R.component = c.component ∧ R.total = c.total ∧
      (target.given = true → Described D.batchSize R ∧ ∀ s < D.batchSize, ∀ f n, Part c s f n → Part R s f n) ∧
      (∀ i : Nat, i < c.total → ∀ a, Wanted c.component target a → R.cell i a.name = value c i a) ∧
      (∀ (i : Nat) (s : String), c.total ≤ i ∨ (∀ a, Wanted c.component target a → a.name ≠ s) → R.cell i s = mem i s) := by
  have hd := hW.divided c hc
  have hm := hW.attributes _ (hW.member c hc)
  have hsz := bytes_sizes h hW hc
  have hl : (countComponent d c.component).bytes.length = D.batchSize := by
    rw [← h.length]
    simp [countComponent]
  have hper : (countComponent d c.component).perScenario = perScenarioOf ((List.range D.batchSize).map (cnt c)) := by
    rw [← hsz]
    rfl
  have htot : (countComponent d c.component).total = if (countComponent d c.component).perScenario < 0 then
      ((((List.range D.batchSize).map (cnt c)).sum : Nat) : Int) else (countComponent d c.component).perScenario * D.batchSize := by
    rw [← hsz, ← h.length]
    rfl
  -- the description, whatever memory is filled
  have hdesc := announced_described hd (R := ⟨c.component, (countComponent d c.component).perScenario, (countComponent d c.component).total,
    scan 0 ((List.range D.batchSize).map (cnt c)), none, fun _ _ => .int 0⟩) hper htot (fun _ => rfl)
  simp only at hdesc
  by_cases hgiven : target.given = true
  · have hread := parseComponent_read hg (compact := compact) (x := countComponent d c.component) (mem := mem)
      (attributes := predefinedOf (sentAttributes D compact) c.component.name) hgiven hd rfl hdesc.1
      (fun mem0 hmem0 => {
        meta_ := hm
        suitable := hsuit
        columns := hW.columns c hc
        typed := hW.typed c hc
        nan := hmem0
        compact_ := fun hcp => by
          subst hcp
          refine ⟨by rw [predefinedOf_eq hW true hc ht, attributesOf_eq hW hc ht]; rfl, fun i hi => ?_⟩
          rw [predefinedOf_eq hW true hc ht]
          have := listed_complete (v := ⟨c, 0, c.total.toNat⟩) (hW.columns c hc) hm (k := i) (by show i < c.total.toNat; omega)
            (fun a ha hh => by rw [Nat.zero_add]; exact hW.typed c hc a ha hh i hi)
          rw [Nat.zero_add] at this
          exact this
        verbose := fun hcp => by rw [predefinedOf_eq hW compact hc ht, hcp]; rfl })
      (fun hi s hs hpos => by
        have hb := bytes_index h hW hc (List.getElem?_eq_getElem (l := (countComponent d c.component).bytes) (i := s) (by omega))
        have h1 := (hb.2.2.1 hpos).2.2.1
        have h2 : ((countComponent d c.component).bytes.all fun x => !x.hasMap) = true := hi
        have h3 := List.all_eq_true.mp h2 _ (List.getElem_mem (l := (countComponent d c.component).bytes) (n := s) (by omega))
        rw [h1] at h3
        simpa using h3)
      (fun s hs => by
        rw [hsz]
        unfold scenarioOffset off
        rw [← hdesc.2.2 s (by omega), begin_]
        simp only
        rw [show ((s : Int) * (countComponent d c.component).perScenario) = (countComponent d c.component).perScenario * s from Int.mul_comm _ _])
      hl
      (fun s b hb => by
        have := bytes_index h hW hc hb
        exact ⟨this.2.1, this.2.2.1⟩)
    unfold parseTo
    rw [hP, show (countComponent d c.component).component = c.component from rfl, hread]
    refine ⟨_, rfl, rfl, hdesc.1, fun _ => ?_, fun i hi a ha => ?_, fun i s his => ?_⟩
    · have hR := announced_described hd (R := ⟨c.component, (countComponent d c.component).perScenario, (countComponent d c.component).total,
        if target.given = true ∧ (countComponent d c.component).perScenario < 0 then
          scan 0 ((countComponent d c.component).bytes.map ByteMeta.size) else [],
        target.columns?,
        fill c.component target c (setNan c.component target c.total.toNat mem) (off c D.batchSize)⟩) hper htot
        (fun hneg => by
          simp only at hneg ⊢
          rw [if_pos ⟨hgiven, hneg⟩, hsz])
      refine ⟨hR.2.1, fun s hs f n hp => ?_⟩
      rw [part_iff hd hs] at hp
      rw [part_iff hR.2.1 hs]
      have e1 := hR.2.2 s (by omega)
      have e2 := hR.2.2 (s + 1) hs
      refine ⟨hp.1.trans ?_, hp.2.trans ?_⟩
      · exact (congrArg Int.toNat e1).symm
      · exact (congrArg Int.toNat (congrArg₂ (· - ·) e2 e1)).symm
    · show fill c.component target c _ _ i a.name = _
      unfold fill
      rw [targetAttribute_wanted hm hsuit ha]
      have := off_batch hd
      simp only
      rw [if_pos (by omega)]
    · show fill c.component target c _ _ i s = _
      unfold fill
      cases hw : targetAttribute c.component target s with
      | none => exact setNan_unwanted hw
      | some a =>
        have h1 := targetAttribute_some hm hsuit hw
        rcases his with his | his
        · have := off_batch hd
          simp only
          rw [if_neg (by omega)]
          exact setNan_outside (by omega) s
        · exact absurd h1.1 (his a h1.2.2)
  · have hnone : ∀ a, ¬ Wanted c.component target a := by
      intro a ha
      cases target with
      | absent => exact ha
      | row => exact hgiven rfl
      | columns l =>
        cases l with
        | nil => cases ha
        | cons b l => exact hgiven rfl
    have hmem : ∀ as, parseComponent as (countComponent d c.component) target mem = .ok mem := by
      intro as
      cases target with
      | absent => rfl
      | row => exact absurd rfl hgiven
      | columns l =>
        cases l with
        | nil => rfl
        | cons b l => exact absurd rfl hgiven
    unfold parseTo
    rw [hmem]
    exact ⟨_, rfl, rfl, hdesc.1, fun h1 => absurd h1 hgiven, fun i hi a ha => absurd ha (hnone a), fun i s _ => rfl⟩

theorem parseAll_forall {P : Parsed} {target : String → Target} {mem : String → Memory} {Q : Announced → Component → Prop} :
    ∀ {l : List Announced}, (∀ x ∈ l, ∃ R, parseTo P x (target x.component.name) (mem x.component.name) = .ok R ∧ Q x R) →
      ∃ Rs, parseAll P target mem l = .ok Rs ∧ List.Forall₂ Q l Rs
  | [], _ => ⟨[], rfl, List.Forall₂.nil⟩
  | x :: l, h => by
    obtain ⟨R, h1, h2⟩ := h x (by simp)
    obtain ⟨Rs, h3, h4⟩ := parseAll_forall (l := l) fun y hy => h y (List.mem_cons_of_mem _ hy)
    refine ⟨R :: Rs, ?_, List.Forall₂.cons h2 h4⟩
    rw [parseAll, h1]
    simp only [h3]

end PGM.Serial
