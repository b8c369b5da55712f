import Verif.Dataset.Spec
import Mathlib.Tactic.SplitIfs
import Mathlib.Tactic.Ring
import Mathlib.Tactic.Linarith
import Mathlib.Data.List.Range
import Mathlib.Data.List.Nodup

namespace PGM.Datasets

/-! ## Acceptance -/

theorem decreases_false (l : List Int) : decreases l = false ↔ ∀ (i : Nat) a b, l[i]? = some a → l[i + 1]? = some b → a ≤ b := by
  induction l with
  | nil => simp [decreases]
  | cons x l ih =>
    cases l with
    | nil => simp [decreases]
    | cons y l =>
      simp only [decreases, Bool.or_eq_false_iff, decide_eq_false_iff_not, ih]
      constructor
      · rintro ⟨h1, h2⟩ i a b ha hb
        cases i with
        | zero => simp at ha hb; subst ha; subst hb; omega
        | succ i => exact h2 i a b (by simpa using ha) (by simpa using hb)
      · intro h
        refine ⟨?_, fun i a b ha hb => h (i + 1) a b (by simpa using ha) (by simpa using hb)⟩
        have := h 0 x y (by simp) (by simp)
        omega

theorem checkNonUniform_ok (D : Dataset) (e t : Int) (p : Option (List Int)) :
    (∃ u, checkNonUniform D e t p = .ok u) ∧ (0 ≤ e → e * D.batchSize = t) ↔ Divides D.batchSize e t p := by
  unfold checkNonUniform Divides
  by_cases he : e < 0
  · rw [if_pos he]
    have h0 : ¬ 0 ≤ e := by omega
    simp only [h0, false_and, false_or, he, true_and, false_imp_iff, and_true]
    cases p with
    | none => simp
    | some p =>
      simp only [Option.some.injEq, exists_eq_left']
      by_cases hl : p.length < D.batchSize + 1
      · simp only [if_pos hl]
        constructor
        · rintro ⟨u, hu⟩; cases hu
        · intro h; omega
      · rw [if_neg hl]
        have e1 : (p.take (D.batchSize + 1)).head? = p[0]? := by
          rw [List.head?_eq_getElem?, List.getElem?_take_of_lt (by omega)]
        have e2 : (p.take (D.batchSize + 1)).getLast? = p[D.batchSize]? := by
          rw [List.getLast?_eq_getElem?, List.length_take, Nat.min_eq_left (by omega)]
          rw [show D.batchSize + 1 - 1 = D.batchSize by omega, List.getElem?_take_of_lt (by omega)]
        rw [e1, e2]
        by_cases h1 : p[0]? ≠ some 0 ∨ p[D.batchSize]? ≠ some t
        · rw [if_pos h1]
          constructor
          · rintro ⟨u, hu⟩; cases hu
          · rintro ⟨_, a, b, _⟩
            rcases h1 with h1 | h1
            · exact absurd a h1
            · exact absurd b h1
        · rw [if_neg h1]
          rw [not_or, not_not, not_not] at h1
          cases hd : decreases (p.take (D.batchSize + 1)) with
          | true =>
            simp only [if_true]
            constructor
            · rintro ⟨u, hu⟩; cases hu
            · rintro ⟨_, _, _, h⟩
              have : decreases (p.take (D.batchSize + 1)) = false := by
                rw [decreases_false]
                intro i a b ha hb
                have hi : i < D.batchSize := by
                  by_contra hc
                  rw [List.getElem?_eq_none (by rw [List.length_take]; omega)] at hb
                  cases hb
                obtain ⟨a', b', q1, q2, q3⟩ := h i hi
                rw [List.getElem?_take_of_lt (by omega), q1] at ha
                rw [List.getElem?_take_of_lt (by omega), q2] at hb
                cases ha; cases hb; exact q3
              rw [this] at hd; cases hd
          | false =>
            refine ⟨fun _ => ?_, fun _ => ⟨(), by simp⟩⟩
            refine ⟨by omega, h1.1, h1.2, fun i hi => ?_⟩
            rw [decreases_false] at hd
            have g1 : p[i]? = some p[i] := List.getElem?_eq_getElem (by omega)
            have g2 : p[i + 1]? = some p[i + 1] := List.getElem?_eq_getElem (by omega)
            refine ⟨_, _, g1, g2, hd i _ _ ?_ ?_⟩
            · rw [List.getElem?_take_of_lt (by omega), g1]
            · rw [List.getElem?_take_of_lt (by omega), g2]
  · rw [if_neg he]
    have h0 : 0 ≤ e := by omega
    cases p with
    | none =>
      simp only [Option.isSome_none, Bool.false_eq_true, if_false, h0, true_and, he, false_and, or_false, true_imp_iff]
      constructor
      · rintro ⟨_, h⟩; exact h.symm
      · intro h; exact ⟨⟨(), trivial⟩, h.symm⟩
    | some p =>
      simp [he]

theorem find_none (D : Dataset) (name : Nat) : find D name = none ↔ ∀ c ∈ D.components, c.name ≠ name := by
  simp [find, List.findIdx?_eq_none_iff]

/-- What `addBuffer` does when it accepts. -/
theorem addBuffer_ok {D E : Dataset} {name : Nat} {e t : Int} {p : Option (List Int)} {data : Option Ptr} (h : addBuffer D name e t p data = .ok E) :
    Divides D.batchSize e t p ∧ D.info.hasComponent name = true ∧ (∀ c ∈ D.components, c.name ≠ name) ∧
    E = { D with components := D.components ++ [⟨name, e, t, data, [], p.map fun q => q.take (D.batchSize + 1)⟩] } := by
  unfold addBuffer at h
  cases hc : checkNonUniform D e t p with
  | error x => rw [hc] at h; cases h
  | ok u =>
    rw [hc] at h
    simp only [addComponent] at h
    cases hf : find D name with
    | some i => rw [hf] at h; simp at h
    | none =>
      rw [hf] at h
      simp only [Option.isSome_none, Bool.false_eq_true, if_false, checkUniform] at h
      by_cases hu : 0 ≤ e ∧ e * (D.batchSize : Int) ≠ t
      · rw [if_pos hu] at h; cases h
      · rw [if_neg hu] at h
        simp only at h
        cases hm : D.info.hasComponent name with
        | false => rw [hm] at h; cases h
        | true =>
          rw [hm] at h
          simp only [if_true] at h
          cases h
          refine ⟨(checkNonUniform_ok D e t p).mp ⟨⟨u, hc⟩, fun h0 => ?_⟩, rfl, (find_none D name).mp hf, rfl⟩
          by_contra hne
          exact hu ⟨h0, hne⟩

theorem addBuffer_of {D : Dataset} {name : Nat} {e t : Int} {p : Option (List Int)} (data : Option Ptr) (h1 : Divides D.batchSize e t p)
    (h2 : D.info.hasComponent name = true) (h3 : ∀ c ∈ D.components, c.name ≠ name) :
    addBuffer D name e t p data = .ok { D with components := D.components ++ [⟨name, e, t, data, [], p.map fun q => q.take (D.batchSize + 1)⟩] } := by
  obtain ⟨⟨u, hu⟩, h0⟩ := (checkNonUniform_ok D e t p).mpr h1
  unfold addBuffer
  rw [hu]
  simp only [addComponent]
  rw [(find_none D name).mpr h3]
  simp only [Option.isSome_none, Bool.false_eq_true, if_false, checkUniform]
  rw [if_neg (by rintro ⟨a, b⟩; exact b (h0 a))]
  simp only [h2, if_true]

/-! ## Invariant -/

/-- The invariant of a dataset. -/
structure Good (D : Dataset) : Prop where
  divides : ∀ c ∈ D.components, Divides D.batchSize c.perScenario c.total c.indptr
  distinct : D.components.Pairwise fun a b => a.name ≠ b.name
  single : D.isBatch = false → D.batchSize = 1
  length : ∀ c ∈ D.components, ∀ p, c.indptr = some p → p.length = D.batchSize + 1

theorem divides_take {batch : Nat} {e t : Int} {p : Option (List Int)} (h : Divides batch e t p) :
    Divides batch e t (p.map fun q => q.take (batch + 1)) := by
  rcases h with ⟨h1, rfl, h3⟩ | ⟨h1, q, rfl, h3, h4, h5, h6⟩
  · exact .inl ⟨h1, rfl, h3⟩
  · refine .inr ⟨h1, q.take (batch + 1), rfl, by rw [List.length_take]; omega, ?_, ?_, fun i hi => ?_⟩
    · rw [List.getElem?_take_of_lt (by omega), h4]
    · rw [List.getElem?_take_of_lt (by omega), h5]
    · obtain ⟨a, b, k1, k2, k3⟩ := h6 i hi
      exact ⟨a, b, by rw [List.getElem?_take_of_lt (by omega), k1], by rw [List.getElem?_take_of_lt (by omega), k2], k3⟩

theorem good_addBuffer {D E : Dataset} {name : Nat} {e t : Int} {p : Option (List Int)} {data : Option Ptr} (hD : Good D)
    (h : addBuffer D name e t p data = .ok E) : Good E := by
  obtain ⟨h1, -, h3, rfl⟩ := addBuffer_ok h
  refine ⟨?_, ?_, hD.single, ?_⟩
  rotate_left 2
  · intro c hc
    rcases List.mem_append.mp hc with hc | hc
    · exact hD.length c hc
    · rw [List.mem_singleton] at hc
      subst hc
      intro q hq
      rcases h1 with ⟨_, rfl, _⟩ | ⟨_, q', rfl, h3, _⟩
      · cases hq
      · cases hq
        show (List.take (D.batchSize + 1) q').length = D.batchSize + 1
        rw [List.length_take]; omega
  · intro c hc
    rcases List.mem_append.mp hc with hc | hc
    · exact hD.divides c hc
    · rw [List.mem_singleton] at hc; subst hc; exact divides_take h1
  · refine List.pairwise_append.mpr ⟨hD.distinct, List.pairwise_singleton _ _, ?_⟩
    intro a ha b hb
    rw [List.mem_singleton] at hb; subst hb
    exact h3 a ha

theorem good_create {M : Meta} {b : Bool} {n : Int} {D : Dataset} (h : create M b n = .ok D) : Good D := by
  unfold create at h
  split_ifs at h with h1 h2
  · cases h
    refine ⟨by simp, by simp, fun hb => ?_, by simp⟩
    simp only [] at hb
    have : n = 1 := by
      by_contra hn; exact h2 ⟨hb, hn⟩
    rw [this]; rfl

/-- What `addAttribute` does when it accepts. -/
theorem addAttribute_ok {D E : Dataset} {name attr : Nat} {data : Option Ptr} (h : addAttribute D name attr data = .ok E) :
    ∃ i c, find D name = some i ∧ D.components[i]? = some c ∧ c.data = none ∧ (0 < c.total → data ≠ none) ∧
      E = { D with components := D.components.set i { c with attributes := c.attributes ++ [⟨attr, data⟩] } } := by
  unfold addAttribute at h
  cases hf : find D name with
  | none => rw [hf] at h; cases h
  | some i =>
    rw [hf] at h
    simp only [] at h
    cases hc : D.components[i]? with
    | none => rw [hc] at h; cases h
    | some c =>
      rw [hc] at h
      simp only [] at h
      split_ifs at h with h1 h2 h3 h4
      cases h
      refine ⟨i, c, rfl, hc, ?_, fun ht hd => h3 ⟨ht, hd⟩, rfl⟩
      simpa [isColumnar] using h1

theorem pairwise_set {l : List Component} (h : l.Pairwise fun a b => a.name ≠ b.name) {i : Nat} {c c' : Component} (hc : l[i]? = some c)
    (hn : c'.name = c.name) : (l.set i c').Pairwise fun a b => a.name ≠ b.name := by
  have : (l.set i c').map Component.name = l.map Component.name := by
    apply List.ext_getElem?
    intro k
    rw [List.getElem?_map, List.getElem?_map, List.getElem?_set]
    split_ifs with h1 h2
    · subst h1; rw [hc]; simp [hn]
    · subst h1; rw [List.getElem?_eq_none (by omega)]
    · rfl
  have h' := (List.pairwise_map (R := (· ≠ ·)) (f := Component.name)).mpr h
  rw [← this] at h'
  exact List.pairwise_map.mp h'

theorem good_set {D : Dataset} (hD : Good D) {i : Nat} {c c' : Component} (hc : D.components[i]? = some c) (hn : c'.name = c.name)
    (hd : Divides D.batchSize c'.perScenario c'.total c'.indptr) (hi : c'.indptr = c.indptr) :
    Good { D with components := D.components.set i c' } := by
  refine ⟨?_, pairwise_set hD.distinct hc hn, hD.single, ?_⟩
  rotate_left
  · intro x hx
    rcases List.mem_or_eq_of_mem_set hx with hx | hx
    · exact hD.length x hx
    · rw [hx, hi]; exact hD.length c (List.mem_of_getElem? hc)
  intro x hx
  rcases List.mem_or_eq_of_mem_set hx with hx | hx
  · exact hD.divides x hx
  · rw [hx]; exact hd

theorem convert_eq (D : Dataset) : convert D = D := by
  unfold convert
  simp

/-- The invariant gives the extent of every scenario. -/
theorem extent_of {batch : Nat} {c : Component} (h : Divides batch c.perScenario c.total c.indptr) {s : Nat} (hs : s < batch) :
    ∃ n o, extent c s = .ok (n, o) ∧ 0 ≤ n := by
  unfold extent
  rcases h with ⟨h1, h2, h3⟩ | ⟨h1, q, h2, h3, h4, h5, h6⟩
  · rw [if_pos h1]; exact ⟨_, _, rfl, h1⟩
  · rw [if_neg (by omega), h2]
    obtain ⟨a, b, k1, k2, k3⟩ := h6 s hs
    simp only [k1, k2]
    exact ⟨_, _, rfl, by omega⟩

theorem mapComponents_ok {f : Component → Except Err Component} : ∀ {l l' : List Component}, mapComponents f l = .ok l' ↔
    List.Forall₂ (fun c c' => f c = .ok c') l l' := by
  intro l
  induction l with
  | nil => intro l'; simp only [mapComponents, List.forall₂_nil_left_iff]; constructor <;> intro h <;> cases h <;> rfl
  | cons c l ih =>
    intro l'
    simp only [mapComponents]
    rw [List.forall₂_cons_left_iff]
    constructor
    · intro h
      cases hc : f c with
      | error e => rw [hc] at h; cases h
      | ok c' =>
        cases hl : mapComponents f l with
        | error e => rw [hc, hl] at h; cases h
        | ok m =>
          rw [hc, hl] at h
          cases h
          exact ⟨c', m, rfl, ih.mp hl, rfl⟩
    · rintro ⟨c', m, h1, h2, rfl⟩
      rw [h1, ih.mpr h2]

theorem mapComponents_total {f : Component → Except Err Component} (l : List Component) (h : ∀ c ∈ l, ∃ c', f c = .ok c') :
    ∃ l', mapComponents f l = .ok l' := by
  induction l with
  | nil => exact ⟨[], rfl⟩
  | cons c l ih =>
    obtain ⟨c', hc⟩ := h c (by simp)
    obtain ⟨l', hl⟩ := ih fun x hx => h x (by simp [hx])
    exact ⟨c' :: l', by simp only [mapComponents, hc, hl]⟩

/-- What one component becomes in an individual scenario. -/
theorem individualComponent_ok {c c' : Component} {s : Nat} (h : individualComponent c s = .ok c') :
    ∃ n o, extent c s = .ok (n, o) ∧ c'.name = c.name ∧ c'.perScenario = n ∧ c'.total = n ∧ c'.indptr = none ∧ ∀ i, place c' i = place c (o + i) := by
  unfold individualComponent at h
  cases he : extent c s with
  | error e => rw [he] at h; cases h
  | ok x =>
    obtain ⟨n, o⟩ := x
    rw [he] at h
    cases h
    refine ⟨n, o, rfl, rfl, rfl, rfl, rfl, fun i => ?_⟩
    unfold place
    cases hd : c.data with
    | some p => simp [Ptr.advance]; ring
    | none =>
      simp only [Option.map_none, isColumnar, hd, Option.isNone_none, if_true, List.map_map]
      congr 1
      apply List.map_congr_left
      intro a _
      cases ha : a.data with
      | none => simp [ha]
      | some p => simp [ha, Ptr.advance]; ring

theorem forall₂_names {f : Component → Component → Prop} {l l' : List Component} (hf : ∀ c c', f c c' → c'.name = c.name)
    (h : List.Forall₂ f l l') : l'.map Component.name = l.map Component.name := by
  induction h with
  | nil => rfl
  | cons h1 _ ih => simp [hf _ _ h1, ih]

theorem pairwise_of_names {l l' : List Component} (h : l'.map Component.name = l.map Component.name) (hp : l.Pairwise fun a b => a.name ≠ b.name) :
    l'.Pairwise fun a b => a.name ≠ b.name := by
  have h' := (List.pairwise_map (R := (· ≠ ·)) (f := Component.name)).mpr hp
  rw [← h] at h'
  exact List.pairwise_map.mp h'

theorem forall₂_right {α β : Type} {R : α → β → Prop} {l : List α} {l' : List β} (h : List.Forall₂ R l l') {b : β} (hb : b ∈ l') :
    ∃ a ∈ l, R a b := by
  induction h with
  | nil => cases hb
  | cons h1 _ ih =>
    rcases List.mem_cons.mp hb with rfl | hb
    · exact ⟨_, by simp, h1⟩
    · obtain ⟨a, ha, hr⟩ := ih hb
      exact ⟨a, by simp [ha], hr⟩

theorem individual_ok {D E : Dataset} {s : Nat} (h : individual D s = .ok E) : s < D.batchSize ∧
    List.Forall₂ (fun c c' => individualComponent c s = .ok c') D.components E.components ∧ E.isBatch = false ∧ E.batchSize = 1 ∧ E.info = D.info := by
  unfold individual at h
  split_ifs at h with h1
  cases hm : mapComponents (fun c => individualComponent c s) D.components with
  | error e => rw [hm] at h; cases h
  | ok l =>
    rw [hm] at h
    cases h
    exact ⟨by omega, mapComponents_ok.mp hm, rfl, rfl, rfl⟩

theorem good_individual {D E : Dataset} {s : Nat} (hD : Good D) (h : individual D s = .ok E) : Good E := by
  obtain ⟨hs, hf, h1, h2, -⟩ := individual_ok h
  refine ⟨?_, ?_, fun _ => h2, ?_⟩
  rotate_left 2
  · intro c' hc' p hp
    obtain ⟨c, hc, hr⟩ := forall₂_right hf hc'
    obtain ⟨_, _, _, _, _, _, k, _⟩ := individualComponent_ok hr
    rw [k] at hp; cases hp
  · intro c' hc'
    obtain ⟨c, hc, hr⟩ := forall₂_right hf hc'
    obtain ⟨n, o, k1, k2, k3, k4, k5, k6⟩ := individualComponent_ok hr
    obtain ⟨n', o', q1, q2⟩ := extent_of (hD.divides c hc) hs
    rw [q1] at k1
    cases k1
    rw [h2, k3, k4, k5]
    exact .inl ⟨q2, rfl, by simp⟩
  · exact pairwise_of_names (forall₂_names (fun c c' hcc => (individualComponent_ok hcc).choose_spec.choose_spec.2.1) hf) hD.distinct

/-- What a slice is. -/
theorem slice_ok {D E : Dataset} {node first last : Nat} (h : slice D node first last = .ok E) : first ≤ last ∧ last ≤ D.batchSize ∧
    ((first = last ∧ ∃ F, create D.info true 0 = .ok F ∧ addBuffer F node 0 0 none none = .ok E) ∨
    (first < last ∧ ∃ F, individual D first = .ok F ∧ E = { F with isBatch := true, batchSize := last - first, components := F.components.map fun c => { c with total := c.perScenario * ((last - first : Nat) : Int) } })) := by
  unfold slice at h
  split_ifs at h with h1 h2
  · rw [not_or, not_lt, not_lt] at h1
    refine ⟨h1.1, h1.2, .inl ⟨h2, ?_⟩⟩
    cases hc : create D.info true 0 with
    | error e => rw [hc] at h; cases h
    | ok F => rw [hc] at h; exact ⟨F, rfl, h⟩
  · rw [not_or, not_lt, not_lt] at h1
    refine ⟨h1.1, h1.2, .inr ⟨by omega, ?_⟩⟩
    cases hc : individual D first with
    | error e => rw [hc] at h; cases h
    | ok F => rw [hc] at h; cases h; exact ⟨F, rfl, rfl⟩

theorem good_slice {D E : Dataset} {node first last : Nat} (hD : Good D) (h : slice D node first last = .ok E) : Good E := by
  obtain ⟨-, -, ⟨-, F, h1, h2⟩ | ⟨hlt, F, h1, rfl⟩⟩ := slice_ok h
  · exact good_addBuffer (good_create h1) h2
  · have hF := good_individual hD h1
    refine ⟨?_, ?_, by simp, ?_⟩
    rotate_left 2
    · intro c hc p hp
      simp only [List.mem_map] at hc
      obtain ⟨c0, hc0, rfl⟩ := hc
      obtain ⟨_, hf, _⟩ := individual_ok h1
      obtain ⟨x, hx, hr⟩ := forall₂_right hf hc0
      obtain ⟨_, _, _, _, _, _, k, _⟩ := individualComponent_ok hr
      have hp' : c0.indptr = some p := hp
      rw [k] at hp'; cases hp'
    · intro c hc
      simp only [List.mem_map] at hc
      obtain ⟨c0, hc0, rfl⟩ := hc
      obtain ⟨_, hf, _, h3, _⟩ := individual_ok h1
      obtain ⟨x, hx, hr⟩ := forall₂_right hf hc0
      obtain ⟨n, o, k1, k2, k3, k4, k5, k6⟩ := individualComponent_ok hr
      obtain ⟨n', o', q1, q2⟩ := extent_of (hD.divides x hx) (by omega : first < D.batchSize)
      rw [q1] at k1
      cases k1
      refine .inl ⟨?_, k5, rfl⟩
      show 0 ≤ c0.perScenario
      rw [k3]; exact q2
    · exact List.pairwise_map.mpr hF.distinct

theorem made_good {D : Dataset} (h : Made D) : Good D := by
  induction h with
  | create h => exact good_create h
  | addBuffer _ h ih => exact good_addBuffer ih h
  | addAttribute _ h ih =>
    obtain ⟨i, c, -, hc, -, -, rfl⟩ := addAttribute_ok h
    exact good_set ih hc rfl (ih.divides c (List.mem_of_getElem? hc)) rfl
  | convert _ ih => rw [convert_eq]; exact ih
  | individual _ h ih => exact good_individual ih h
  | slice _ _ h ih => exact good_slice ih h

/-! ## Spans -/

/-- Finding a component by its name, with distinct names. -/
theorem find_mem {D : Dataset} (hD : D.components.Pairwise fun a b => a.name ≠ b.name) {c : Component} (hc : c ∈ D.components) :
    ∃ i, find D c.name = some i ∧ D.components[i]? = some c := by
  obtain ⟨i, hi, he⟩ := List.getElem_of_mem hc
  refine ⟨i, ?_, by rw [List.getElem?_eq_getElem hi, he]⟩
  unfold find
  rw [List.findIdx?_eq_some_iff_getElem]
  refine ⟨hi, by simp [he], fun j hj => ?_⟩
  have := List.pairwise_iff_getElem.mp hD j i (by omega) hi hj
  rw [he] at this
  simpa using this

theorem getSpan_mem {D : Dataset} (hD : Good D) {c : Component} (hc : c ∈ D.components) {s : Int} (hs : s < D.batchSize) :
    getSpan D c.name s = spanOf c s := by
  obtain ⟨i, h1, h2⟩ := find_mem hD.distinct hc
  unfold getSpan
  rw [if_neg, if_neg (by omega), h1]
  · simp only [h2]
  · rintro ⟨a, b⟩
    have := hD.single a
    omega

theorem getSpan_absent {D : Dataset} (hD : Good D) {name : Nat} (hn : ∀ c ∈ D.components, c.name ≠ name) {s : Int} (hs : s < D.batchSize) :
    getSpan D name s = .ok [] := by
  unfold getSpan
  rw [if_neg, if_neg (by omega), (find_none D name).mpr hn]
  rintro ⟨a, b⟩
  have := hD.single a
  omega

/-- The elements from `a` on, `n` of them. -/
def elements (c : Component) (a : Int) (n : Nat) : List Place := (List.range n).map fun k : Nat => place c (a + k)

theorem elements_append (c : Component) (a : Int) (m n : Nat) : elements c a m ++ elements c (a + m) n = elements c a (m + n) := by
  unfold elements
  rw [List.range_add, List.map_append, List.map_map]
  congr 1
  apply List.map_congr_left
  intro k _
  simp only [Function.comp_apply, Nat.cast_add]
  congr 1
  ring

theorem range_ok (c : Component) {a b : Int} (h : a ≤ b) : range c a b = .ok (elements c a (b - a).toNat) := by
  unfold range elements
  rw [if_neg (by omega)]

theorem spanOf_extent {batch : Nat} {c : Component} (h : Divides batch c.perScenario c.total c.indptr) {s : Nat} (hs : s < batch) {n o : Int}
    (he : extent c s = .ok (n, o)) : spanOf c s = .ok (elements c o n.toNat) := by
  unfold spanOf
  unfold extent at he
  rw [if_neg (by omega)]
  rcases h with ⟨h1, h2, h3⟩ | ⟨h1, q, h2, h3, h4, h5, h6⟩
  · rw [if_pos h1] at he
    cases he
    rw [if_neg (by omega), range_ok c (by nlinarith)]
    congr 3
    ring
  · rw [if_neg (by omega), h2] at he
    rw [if_pos h1, h2]
    obtain ⟨a, b, k1, k2, k3⟩ := h6 s hs
    simp only [k1, k2] at he
    cases he
    simp only [Int.toNat_natCast, k1, k2]
    exact range_ok c k3

theorem spanOf_all {batch : Nat} {c : Component} (h : Divides batch c.perScenario c.total c.indptr) :
    0 ≤ c.total ∧ spanOf c (-1) = .ok (elements c 0 c.total.toNat) := by
  have h0 : 0 ≤ c.total := by
    rcases h with ⟨h1, h2, h3⟩ | ⟨h1, q, h2, h3, h4, h5, h6⟩
    · rw [h3]; exact mul_nonneg h1 (by omega)
    · have : ∀ k ≤ batch, ∃ a, q[k]? = some a ∧ 0 ≤ a := by
        intro k
        induction k with
        | zero => intro _; exact ⟨0, h4, le_refl _⟩
        | succ k ih =>
          intro hk
          obtain ⟨a, ha, hz⟩ := ih (by omega)
          obtain ⟨a', b, k1, k2, k3⟩ := h6 k (by omega)
          rw [ha] at k1; cases k1
          exact ⟨b, k2, by omega⟩
      obtain ⟨a, ha, hz⟩ := this batch (le_refl _)
      rw [h5] at ha; cases ha; exact hz
  refine ⟨h0, ?_⟩
  unfold spanOf
  rw [if_pos (by omega), range_ok c h0, sub_zero]

/-- The first scenarios together hold the elements up to the begin of the next one. -/
theorem concat_upTo {batch : Nat} {c : Component} (h : Divides batch c.perScenario c.total c.indptr) (spans : Nat → List Place)
    (hs : ∀ s < batch, spanOf c s = .ok (spans s)) : (List.range batch).flatMap spans = elements c 0 c.total.toNat := by
  have key : ∀ k ≤ batch, ∃ o : Int, 0 ≤ o ∧ (List.range k).flatMap spans = elements c 0 o.toNat ∧
      (0 ≤ c.perScenario → o = c.perScenario * k) ∧ (∀ q, c.perScenario < 0 → c.indptr = some q → q[k]? = some o) := by
    intro k
    induction k with
    | zero =>
      intro _
      refine ⟨0, le_refl _, by simp [elements], by simp, fun q hq hi => ?_⟩
      rcases h with ⟨h1, _⟩ | ⟨_, q', h2, _, h4, _⟩
      · omega
      · rw [h2] at hi; cases hi; exact h4
    | succ k ih =>
      intro hk
      obtain ⟨o, o1, o2, o3, o4⟩ := ih (by omega)
      obtain ⟨n, o', e1, e2⟩ := extent_of h (by omega : k < batch)
      have hsp := spanOf_extent h (by omega) e1
      rw [hs k (by omega)] at hsp
      have hoo : o' = o ∧ (0 ≤ c.perScenario → n = c.perScenario) ∧ (∀ q, c.perScenario < 0 → c.indptr = some q → q[k + 1]? = some (o + n)) := by
        unfold extent at e1
        by_cases hp : 0 ≤ c.perScenario
        · rw [if_pos hp] at e1; cases e1
          exact ⟨(o3 hp).symm, fun _ => rfl, fun q hq => by omega⟩
        · rw [if_neg hp] at e1
          rcases h with ⟨h1, _⟩ | ⟨h1, q, h2, h3, h4, h5, h6⟩
          · exact absurd h1 hp
          · rw [h2] at e1
            obtain ⟨a, b, k1, k2, k3⟩ := h6 k (by omega)
            simp only [k1, k2] at e1
            cases e1
            have := o4 q h1 h2
            rw [k1] at this; cases this
            refine ⟨rfl, fun h => absurd h hp, fun q' _ hq' => ?_⟩
            rw [h2] at hq'; cases hq'
            rw [k2]; congr 1; ring
      obtain ⟨rfl, hn, hq⟩ := hoo
      refine ⟨o' + n, by omega, ?_, ?_, hq⟩
      · rw [List.range_succ, List.flatMap_append, o2]
        simp only [List.flatMap_cons, List.flatMap_nil, List.append_nil]
        rw [Except.ok.inj hsp]
        have : o' = ((o'.toNat : Nat) : Int) := by omega
        rw [show elements c o' n.toNat = elements c (0 + (o'.toNat : Int)) n.toNat by rw [zero_add, ← this], elements_append]
        congr 1
        omega
      · intro hp; rw [o3 hp, hn hp]; push_cast; ring
  obtain ⟨o, o1, o2, o3, o4⟩ := key batch (le_refl _)
  rw [o2]
  congr 1
  rcases h with ⟨h1, h2, h3⟩ | ⟨h1, q, h2, h3, h4, h5, h6⟩
  · rw [o3 h1, h3]
  · have := o4 q h1 h2
    rw [h5] at this; cases this; rfl

end PGM.Datasets
