import Verif.ResultSet.Spec
import Verif.Dataset.Lemmas

/-!
# Datasets for the results of a calculation: lemmas (C67)
-/

namespace PGM.ResultSet

open PGM.Datasets PGM.Update

/-- What holds of the dataset while it is filled. -/
structure Inv (H : Heap) (o : Owning) : Prop where
  blocks : o.storage.map (·.block) = List.range' H.free o.storage.length
  made : Made o.set

theorem own_mono {R R' : Owning} {c : Nat} {k : Option Nat} {s : Int} {p : Option Ptr} (h : Own R c k s p) (hs : ∀ x ∈ R.storage, x ∈ R'.storage) : Own R' c k s p := by
  rcases h with ⟨b, h1, h2⟩ | h
  · exact .inl ⟨b, h1, hs _ h2⟩
  · exact .inr h

theorem room_mono {R R' : Owning} {n : Nat} {F : Filter} {c c' : Component} (h : Room R n F c c') (hs : ∀ x ∈ R.storage, x ∈ R'.storage) : Room R' n F c c' :=
  ⟨h.name, h.perScenario, h.total, h.uniform, fun ha => ⟨(h.rows ha).1, own_mono (h.rows ha).2 hs⟩,
    fun attrs ha hne => ⟨(h.columns attrs ha hne).1, (h.columns attrs ha hne).2.1, fun a hm => own_mono ((h.columns attrs ha hne).2.2 a hm) hs⟩⟩

theorem blocks_snoc {H : Heap} {l : List Memory} (h : l.map (·.block) = List.range' H.free l.length) (c : Nat) (k : Option Nat) (s : Int) :
    (l ++ [(⟨H.free + l.length, c, k, s⟩ : Memory)]).map (·.block) = List.range' H.free (l ++ [(⟨H.free + l.length, c, k, s⟩ : Memory)]).length := by
  rw [List.map_append, h, List.length_append, List.length_singleton, List.range'_concat]
  simp

theorem address_own {H : Heap} {o : Owning} {D : Dataset} {c : Nat} {k : Option Nat} {s : Int} (b : Bool) :
    Own ⟨D, o.storage ++ [⟨H.free + o.storage.length, c, k, s⟩]⟩ c k s (address H o s b) := by
  unfold address
  split_ifs with h
  · exact .inr ⟨h.1, rfl⟩
  · exact .inl ⟨_, rfl, by simp⟩

theorem find_last {D : Dataset} {pre : List Component} {c : Component} (h : D.components = pre ++ [c]) (hn : ∀ x ∈ pre, x.name ≠ c.name) : find D c.name = some pre.length := by
  unfold find
  rw [h, List.findIdx?_append]
  have : pre.findIdx? (fun x => x.name == c.name) = none := by
    rw [List.findIdx?_eq_none_iff]
    intro x hx
    simpa using hn x hx
  rw [this]
  simp [List.findIdx?_cons]

/-- The loop over the attributes. -/
theorem addColumns_ok {H : Heap} {size : Int} : ∀ (l : List Nat) (o : Owning) (pre : List Component) (c : Component), Inv H o → o.set.components = pre ++ [c] → (∀ x ∈ pre, x.name ≠ c.name) → c.data = none →
    c.total = size → (c.attributes.map (·.name) ++ l).Nodup → (∀ a ∈ l, o.set.info.hasAttribute c.name a = true) → (∀ a ∈ c.attributes, Own o c.name (some a.name) size a.data) →
    ∃ o' as, addColumns H c.name size l o = .ok o' ∧ Inv H o' ∧ o'.set = { o.set with components := pre ++ [{ c with attributes := as }] } ∧ as.map (·.name) = c.attributes.map (·.name) ++ l ∧
      (∀ x ∈ o.storage, x ∈ o'.storage) ∧ ∀ a ∈ as, Own o' c.name (some a.name) size a.data := by
  intro l
  induction l with
  | nil =>
    intro o pre c hi hc _ _ _ _ _ ho
    refine ⟨o, c.attributes, rfl, hi, ?_, by simp, fun _ h => h, ho⟩
    cases o with
    | mk s st =>
      cases s
      simp only at hc
      subst hc
      rfl
  | cons a l ih =>
    intro o pre c hi hc hpre hd ht hnd ha ho
    have hstep : ∃ p, p = address H o size H.emptyVector := ⟨_, rfl⟩
    obtain ⟨p, hp⟩ := hstep
    have hadd : addAttribute o.set c.name a p = .ok { o.set with components := pre ++ [{ c with attributes := c.attributes ++ [⟨a, p⟩] }] } := by
      unfold addAttribute
      rw [find_last hc hpre]
      have hget : o.set.components[pre.length]? = some c := by rw [hc]; simp
      simp only [hget]
      rw [if_neg (by simp [isColumnar, hd]), if_neg, if_neg, if_pos (ha a (by simp))]
      · rw [hc]
        simp
      · rintro ⟨h1, h2⟩
        rw [hp] at h2
        unfold address at h2
        rw [if_neg (by omega)] at h2
        cases h2
      · intro h
        rw [List.any_eq_true] at h
        obtain ⟨x, hx, hxa⟩ := h
        have := List.nodup_append.mp hnd
        exact this.2.2 a (List.mem_map.mpr ⟨x, hx, by simpa using hxa⟩) a (by simp) rfl
    have hcol : addColumn H c.name size o a = .ok ⟨{ o.set with components := pre ++ [{ c with attributes := c.attributes ++ [⟨a, p⟩] }] }, o.storage ++ [⟨H.free + o.storage.length, c.name, some a, size⟩]⟩ := by
      unfold addColumn
      rw [← hp, hadd]
    have hown : Own ⟨{ o.set with components := pre ++ [{ c with attributes := c.attributes ++ [⟨a, p⟩] }] }, o.storage ++ [⟨H.free + o.storage.length, c.name, some a, size⟩]⟩ c.name (some a) size p := by
      rw [hp]
      exact address_own _
    obtain ⟨o', as, h1, h2, h3, h4, h5, h6⟩ := ih ⟨{ o.set with components := pre ++ [{ c with attributes := c.attributes ++ [⟨a, p⟩] }] }, o.storage ++ [⟨H.free + o.storage.length, c.name, some a, size⟩]⟩ pre
      { c with attributes := c.attributes ++ [⟨a, p⟩] } ⟨blocks_snoc hi.blocks _ _ _, .addAttribute hi.made hadd⟩ rfl hpre hd ht (by simpa using hnd) (fun x hx => ha x (by simp [hx])) (by
        intro x hx
        rcases List.mem_append.mp hx with hx | hx
        · exact own_mono (ho x hx) (by intro y hy; simp [hy])
        · rw [List.mem_singleton] at hx
          subst hx
          exact hown)
    refine ⟨o', as, ?_, h2, h3, by simpa using h4, fun x hx => h5 x (by simp [hx]), h6⟩
    rw [addColumns]
    rw [hcol]
    exact h1

theorem attributesOf_mem {F : Filter} {c : Nat} {attrs : List Nat} (hk : (F.map (·.1)).Nodup) (h : (c, attrs) ∈ F) : attributesOf F c = attrs := by
  unfold attributesOf
  induction F with
  | nil => simp at h
  | cons x F ih =>
    rw [List.map_cons, List.nodup_cons] at hk
    rw [List.find?_cons]
    rcases List.mem_cons.mp h with h | h
    · subst h
      simp
    · have : (x.1 == c) = false := by
        rw [beq_eq_false_iff_ne]
        rintro rfl
        exact hk.1 (List.mem_map.mpr ⟨_, h, rfl⟩)
      rw [this]
      exact ih hk.2 h

theorem attributesOf_absent {F : Filter} {c : Nat} (h : ∀ attrs, (c, attrs) ∉ F) : attributesOf F c = [] := by
  unfold attributesOf
  have : F.find? (fun x => x.1 == c) = none := by
    rw [List.find?_eq_none]
    rintro ⟨k, attrs⟩ hx hk
    simp only [beq_iff_eq] at hk
    subst hk
    exact h _ hx
  rw [this]

theorem contains_iff {F : Filter} {c : Nat} : contains F c = true ↔ ∃ attrs, (c, attrs) ∈ F := by
  unfold contains
  rw [List.any_eq_true]
  constructor
  · rintro ⟨⟨k, attrs⟩, hx, hk⟩
    simp only [beq_iff_eq] at hk
    subst hk
    exact ⟨_, hx⟩
  · rintro ⟨attrs, h⟩
    exact ⟨_, h, by simp⟩

theorem irrelevant_iff (calculation : Calculation) (t : CompType) : t ∈ irrelevant calculation ↔ ¬ HasResults calculation t := by
  cases calculation <;> cases t <;> simp [irrelevant, HasResults]

theorem irrelevant_name {H : Heap} (hn : Function.Injective H.name) (calculation : Calculation) (t : CompType) : ((irrelevant calculation).map H.name).contains (H.name t) = true ↔ ¬ HasResults calculation t := by
  rw [List.contains_iff_mem, List.mem_map_of_injective hn, irrelevant_iff]

variable {H : Heap} {ref : Dataset} {calculation : Calculation} {sym : Bool} {F : Filter}

theorem outputType_eq (calculation : Calculation) (sym : Bool) : outputType calculation sym = resultType calculation sym := by
  cases calculation <;> cases sym <;> rfl

theorem Proper.known' (hP : Proper H ref calculation sym F) : ∀ c ∈ ref.components, (H.info (outputType calculation sym)).hasComponent c.name = true := by
  rw [outputType_eq]
  exact hP.known

theorem Proper.attributes' (hP : Proper H ref calculation sym F) : ∀ x ∈ F, ∀ a ∈ x.2, (H.info (outputType calculation sym)).hasAttribute x.1 a = true := by
  rw [outputType_eq]
  exact hP.attributes

/-- A component that is not wanted is left out. -/
theorem skip (hP : Proper H ref calculation sym F) {c : Component} (hc : c ∈ ref.components) (hw : ¬ Wanted H calculation F c.name) (batch : Int) (o : Owning) : addResult H calculation sym batch F o c = .ok o := by
  unfold addResult
  rw [if_neg (by simp [hP.known' c hc])]
  by_cases h1 : F ≠ [] ∧ contains F c.name = false
  · rw [if_pos h1]
  · rw [if_neg h1]
    have ha : Asked F c.name := by
      unfold Asked
      by_cases hF : F = []
      · exact .inl hF
      · refine .inr (contains_iff.mp ?_)
        by_contra hcon
        exact h1 ⟨hF, by simpa using hcon⟩
    obtain ⟨t, ht⟩ := hP.typed c hc
    rw [if_pos]
    rw [ht, irrelevant_name hP.names]
    intro hr
    exact hw ⟨ha, t, ht, hr⟩

/-- What happens to a component that is wanted. -/
theorem wanted_step (hP : Proper H ref calculation sym F) {c : Component} (hc : c ∈ ref.components) (hw : Wanted H calculation F c.name) (batch : Int) (o : Owning) :
    addResult H calculation sym batch F o c = if c.perScenario < 0 then .error .variableSize else if attributesOf F c.name = [] then addRow H o c.name c.perScenario (c.perScenario * batch)
      else addColumnar H o c.name c.perScenario (c.perScenario * batch) (attributesOf F c.name) := by
  unfold addResult
  obtain ⟨ha, t, ht, hr⟩ := hw
  rw [if_neg (by simp [hP.known' c hc]), if_neg, if_neg]
  · rw [ht, irrelevant_name hP.names]
    exact fun h => h hr
  · rintro ⟨h1, h2⟩
    rcases ha with h | h
    · exact h1 h
    · rw [contains_iff.mpr h] at h2
      cases h2

/-- A wanted component of fixed size is added. -/
theorem add_wanted (hP : Proper H ref calculation sym F) {c : Component} (hc : c ∈ ref.components) (hw : Wanted H calculation F c.name) (he : 0 ≤ c.perScenario) {o : Owning} (hi : Inv H o)
    (hm : o.set.info = H.info (outputType calculation sym)) (hnew : ∀ x ∈ o.set.components, x.name ≠ c.name) :
    ∃ o' c', addResult H calculation sym o.set.batchSize F o c = .ok o' ∧ Inv H o' ∧ o'.set = { o.set with components := o.set.components ++ [c'] } ∧ (∀ x ∈ o.storage, x ∈ o'.storage) ∧ Room o' o.set.batchSize F c c' := by
  rw [wanted_step hP hc hw, if_neg (by omega)]
  have hk : o.set.info.hasComponent c.name = true := by rw [hm]; exact hP.known' c hc
  have hdiv : Divides o.set.batchSize c.perScenario (c.perScenario * o.set.batchSize) none := .inl ⟨he, rfl, rfl⟩
  by_cases hat : attributesOf F c.name = []
  · rw [if_pos hat]
    have hadd := addBuffer_of (address H o (c.perScenario * o.set.batchSize) H.emptyBuffer) hdiv hk hnew
    refine ⟨⟨{ o.set with components := o.set.components ++ [⟨c.name, c.perScenario, c.perScenario * o.set.batchSize, address H o (c.perScenario * o.set.batchSize) H.emptyBuffer, [], none⟩] },
      o.storage ++ [⟨H.free + o.storage.length, c.name, none, c.perScenario * o.set.batchSize⟩]⟩,
      ⟨c.name, c.perScenario, c.perScenario * o.set.batchSize, address H o (c.perScenario * o.set.batchSize) H.emptyBuffer, [], none⟩, ?_, ⟨blocks_snoc hi.blocks _ _ _, .addBuffer hi.made hadd⟩, rfl,
      fun x hx => by simp [hx], ⟨rfl, rfl, rfl, rfl, fun _ => ⟨rfl, address_own _⟩, ?_⟩⟩
    · unfold addRow
      rw [hadd]
      rfl
    · intro attrs hmem hne
      rw [attributesOf_mem hP.keys hmem] at hat
      exact absurd hat hne
  · rw [if_neg hat]
    have hadd := addBuffer_of none hdiv hk hnew
    have hmem : (c.name, attributesOf F c.name) ∈ F := by
      by_contra hcon
      apply hat
      apply attributesOf_absent
      intro attrs hx
      rw [attributesOf_mem hP.keys hx] at hcon
      exact hcon hx
    obtain ⟨o', as, h1, h2, h3, h4, h5, h6⟩ := addColumns_ok (H := H) (size := c.perScenario * o.set.batchSize) (attributesOf F c.name)
      ⟨{ o.set with components := o.set.components ++ [⟨c.name, c.perScenario, c.perScenario * o.set.batchSize, none, [], none⟩] }, o.storage⟩ o.set.components
      ⟨c.name, c.perScenario, c.perScenario * o.set.batchSize, none, [], none⟩ ⟨hi.blocks, .addBuffer hi.made hadd⟩ rfl hnew rfl rfl (by simpa using hP.once _ hmem)
      (fun a ha => by
        show o.set.info.hasAttribute c.name a = true
        rw [hm]
        exact hP.attributes' _ hmem a ha)
      (by simp)
    refine ⟨o', ⟨c.name, c.perScenario, c.perScenario * o.set.batchSize, none, as, none⟩, ?_, h2, h3, h5, ⟨rfl, rfl, rfl, rfl, ?_, ?_⟩⟩
    · unfold addColumnar
      rw [hadd]
      exact h1
    · intro hall
      exact absurd (hall _ hmem) hat
    · intro attrs hx hne
      have := attributesOf_mem hP.keys hx
      exact ⟨rfl, by rw [← this]; simpa using h4, h6⟩

open Classical in
/-- The loop over the components, when all wanted ones have a fixed size. -/
theorem addResults_ok (hP : Proper H ref calculation sym F) : ∀ (l : List Component) (o : Owning), (∀ c ∈ l, c ∈ ref.components) → (l.map (·.name)).Nodup → (∀ c ∈ l, Wanted H calculation F c.name → 0 ≤ c.perScenario) → Inv H o →
    o.set.info = H.info (outputType calculation sym) → (∀ c ∈ l, ∀ x ∈ o.set.components, x.name ≠ c.name) →
    ∃ R new, addResults H calculation sym o.set.batchSize F l o = .ok R ∧ Inv H R ∧ R.set = { o.set with components := o.set.components ++ new } ∧ (∀ x ∈ o.storage, x ∈ R.storage) ∧
      List.Forall₂ (Room R o.set.batchSize F) (l.filter fun c => decide (Wanted H calculation F c.name)) new := by
  intro l
  induction l with
  | nil =>
    intro o _ _ _ hi _ _
    exact ⟨o, [], rfl, hi, by simp, fun _ h => h, by simp⟩
  | cons c l ih =>
    intro o hl hnd hfix hi hm hnew
    rw [List.map_cons, List.nodup_cons] at hnd
    by_cases hw : Wanted H calculation F c.name
    · obtain ⟨o', c', h1, h2, h3, h4, h5⟩ := add_wanted hP (hl c (by simp)) hw (hfix c (by simp) hw) hi hm (hnew c (by simp))
      have hb : o'.set.batchSize = o.set.batchSize := by rw [h3]
      obtain ⟨R, new, g1, g2, g3, g4, g5⟩ := ih o' (fun x hx => hl x (by simp [hx])) hnd.2 (fun x hx => hfix x (by simp [hx])) h2 (by rw [h3]; exact hm) (by
        intro x hx y hy
        rw [h3] at hy
        rcases List.mem_append.mp hy with hy | hy
        · exact hnew x (by simp [hx]) y hy
        · rw [List.mem_singleton] at hy
          subst hy
          rw [h5.name]
          intro hcx
          exact hnd.1 (List.mem_map.mpr ⟨x, hx, hcx.symm⟩))
      refine ⟨R, c' :: new, ?_, g2, ?_, fun x hx => g4 x (h4 x hx), ?_⟩
      · rw [addResults]
        rw [h1]
        rw [hb] at g1
        exact g1
      · rw [g3, h3]
        simp
      · rw [List.filter_cons_of_pos (by simpa using hw)]
        rw [hb] at g5
        exact .cons (room_mono h5 g4) g5
    · obtain ⟨R, new, g1, g2, g3, g4, g5⟩ := ih o (fun x hx => hl x (by simp [hx])) hnd.2 (fun x hx => hfix x (by simp [hx])) hi hm (fun x hx => hnew x (by simp [hx]))
      refine ⟨R, new, ?_, g2, g3, g4, ?_⟩
      · rw [addResults]
        rw [skip hP (hl c (by simp)) hw]
        exact g1
      · rw [List.filter_cons_of_neg (by simpa using hw)]
        exact g5

/-- The loop over the components, when a wanted one has no fixed size. -/
theorem addResults_variable (hP : Proper H ref calculation sym F) : ∀ (l : List Component) (o : Owning), (∀ c ∈ l, c ∈ ref.components) → (l.map (·.name)).Nodup → (∃ c ∈ l, Wanted H calculation F c.name ∧ c.perScenario < 0) → Inv H o →
    o.set.info = H.info (outputType calculation sym) → (∀ c ∈ l, ∀ x ∈ o.set.components, x.name ≠ c.name) → addResults H calculation sym o.set.batchSize F l o = .error .variableSize := by
  intro l
  induction l with
  | nil =>
    intro o _ _ h
    simp at h
  | cons c l ih =>
    intro o hl hnd hex hi hm hnew
    rw [List.map_cons, List.nodup_cons] at hnd
    rw [addResults]
    by_cases hw : Wanted H calculation F c.name
    · by_cases he : c.perScenario < 0
      · rw [wanted_step hP (hl c (by simp)) hw, if_pos he]
      · obtain ⟨o', c', h1, h2, h3, h4, h5⟩ := add_wanted hP (hl c (by simp)) hw (by omega) hi hm (hnew c (by simp))
        have hb : o'.set.batchSize = o.set.batchSize := by rw [h3]
        rw [h1]
        show addResults H calculation sym o.set.batchSize F l o' = _
        rw [← hb]
        refine ih o' (fun x hx => hl x (by simp [hx])) hnd.2 ?_ h2 (by rw [h3]; exact hm) ?_
        · obtain ⟨x, hx, hxw, hxe⟩ := hex
          rcases List.mem_cons.mp hx with rfl | hx
          · exact absurd hxe he
          · exact ⟨x, hx, hxw, hxe⟩
        · intro x hx y hy
          rw [h3] at hy
          rcases List.mem_append.mp hy with hy | hy
          · exact hnew x (by simp [hx]) y hy
          · rw [List.mem_singleton] at hy
            subst hy
            rw [h5.name]
            intro hcx
            exact hnd.1 (List.mem_map.mpr ⟨x, hx, hcx.symm⟩)
    · rw [skip hP (hl c (by simp)) hw]
      refine ih o (fun x hx => hl x (by simp [hx])) hnd.2 ?_ hi hm (fun x hx => hnew x (by simp [hx]))
      obtain ⟨x, hx, hxw, hxe⟩ := hex
      rcases List.mem_cons.mp hx with rfl | hx
      · exact absurd hxw hw
      · exact ⟨x, hx, hxw, hxe⟩

end PGM.ResultSet
