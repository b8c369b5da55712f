import Verif.Dataset.Lemmas

/-!
# Datasets: theorems (C35) -/

namespace PGM.Datasets

/-- A buffer is accepted exactly if it says in one of the two ways how its elements are divided over the scenarios, and its component exists and is
new; nothing else of the dataset changes. -/
theorem addBuffer_iff (D : Dataset) (name : Nat) (e t : Int) (p : Option (List Int)) (data : Option Ptr) :
    (∃ E, addBuffer D name e t p data = .ok E) ↔
      Divides D.batchSize e t p ∧ D.info.hasComponent name = true ∧ ∀ c ∈ D.components, c.name ≠ name := by
  constructor
  · rintro ⟨E, h⟩
    obtain ⟨h1, h2, h3, -⟩ := addBuffer_ok h
    exact ⟨h1, h2, h3⟩
  · rintro ⟨h1, h2, h3⟩
    exact ⟨_, addBuffer_of data h1 h2 h3⟩

theorem place_injective {c : Component} (hm : c.data ≠ none ∨ ∃ a ∈ c.attributes, a.data ≠ none) {i j : Int} (h : place c i = place c j) : i = j := by
  unfold place at h
  cases hd : c.data with
  | some p =>
    rw [hd] at h
    simp only [Place.row.injEq, Ptr.advance, Ptr.mk.injEq, true_and] at h
    omega
  | none =>
    rcases hm with hm | ⟨a, ha, hn⟩
    · exact absurd hd hm
    · rw [hd] at h
      simp only [Place.column.injEq] at h
      rw [List.map_inj_left] at h
      have := h a ha
      obtain ⟨p, hp⟩ := Option.ne_none_iff_exists'.mp hn
      simp only [hp, Option.map_some, Prod.mk.injEq, Option.some.injEq, Ptr.advance, Ptr.mk.injEq, true_and] at this
      omega

/-- The spans of the scenarios exist, follow each other and together are the whole buffer: elements 0, 1, ... of the arrays, each once. -/
theorem scenarios_partition {D : Dataset} (hD : Made D) {c : Component} (hc : c ∈ D.components) :
    ∃ spans : Nat → List Place, (∀ s < D.batchSize, getSpan D c.name s = .ok (spans s)) ∧ 0 ≤ c.total ∧
      (List.range D.batchSize).flatMap spans = (List.range c.total.toNat).map (fun i : Nat => place c i) ∧
      getSpan D c.name (-1) = .ok ((List.range D.batchSize).flatMap spans) ∧
      (∀ s < D.batchSize, Holds c s (spans s).length) ∧
      -- with memory behind the component, no element is in two scenarios, or twice in one
      (c.data ≠ none ∨ (∃ a ∈ c.attributes, a.data ≠ none) → ((List.range D.batchSize).flatMap spans).Nodup) := by
  have hg := made_good hD
  have hdiv := hg.divides c hc
  have hex : ∀ s : Nat, ∃ l, s < D.batchSize → spanOf c s = .ok l ∧ Holds c s l.length := by
    intro s
    by_cases hs : s < D.batchSize
    · obtain ⟨n, o, h1, h2⟩ := extent_of hdiv hs
      refine ⟨elements c o n.toNat, fun _ => ⟨spanOf_extent hdiv hs h1, ?_⟩⟩
      have hlen : ((elements c o n.toNat).length : Int) = n := by
        simp only [elements, List.length_map, List.length_range]; omega
      rw [hlen]
      unfold Holds
      unfold extent at h1
      rcases hdiv with ⟨k1, k2, k3⟩ | ⟨k1, q, k2, k3, k4, k5, k6⟩
      · rw [if_pos k1] at h1; cases h1; rw [k2]
      · rw [if_neg (by omega), k2] at h1
        rw [k2]
        obtain ⟨a, b, q1, q2, q3⟩ := k6 s hs
        simp only [q1, q2] at h1
        cases h1
        exact ⟨_, b, q1, q2, rfl⟩
    · exact ⟨[], fun h => absurd h hs⟩
  choose spans hsp using hex
  obtain ⟨h0, hall⟩ := spanOf_all hdiv
  have hcat := concat_upTo hdiv spans fun s hs => (hsp s hs).1
  have hel : elements c 0 c.total.toNat = (List.range c.total.toNat).map (fun i : Nat => place c i) := by
    unfold elements; simp only [zero_add]
  refine ⟨spans, fun s hs => ?_, h0, ?_, ?_, fun s hs => (hsp s hs).2, fun hm => ?_⟩
  · rw [getSpan_mem hg hc (by omega), (hsp s hs).1]
  · rw [hcat, hel]
  · rw [getSpan_mem hg hc (by omega), hall, hcat]
  · rw [hcat, hel]
    refine List.Nodup.map (fun i j h => ?_) List.nodup_range
    have := place_injective hm h
    omega

/-- A component that the dataset does not have has no elements. -/
theorem absent_empty {D : Dataset} (hD : Made D) {name : Nat} (hn : ∀ c ∈ D.components, c.name ≠ name) {s : Int} (hs : s < D.batchSize) :
    getSpan D name s = .ok [] := getSpan_absent (made_good hD) hn hs

/-- An individual scenario as a dataset of its own has the span of that scenario, for every component. -/
theorem individual_span {D : Dataset} (hD : Made D) {s : Nat} (hs : s < D.batchSize) :
    ∃ E, individual D s = .ok E ∧ E.isBatch = false ∧ E.batchSize = 1 ∧
      ∀ name, getSpan E name 0 = getSpan D name s ∧ getSpan E name (-1) = getSpan D name s := by
  have hg := made_good hD
  have : ∃ E, individual D s = .ok E := by
    unfold individual
    rw [if_neg (by omega)]
    obtain ⟨l, hl⟩ := mapComponents_total (f := fun c => individualComponent c s) D.components fun c hc => by
      obtain ⟨n, o, h1, -⟩ := extent_of (hg.divides c hc) hs
      exact ⟨_, by unfold individualComponent; rw [h1]⟩
    rw [hl]
    exact ⟨_, rfl⟩
  obtain ⟨E, hE⟩ := this
  obtain ⟨-, hf, h1, h2, -⟩ := individual_ok hE
  have hgE := good_individual hg hE
  refine ⟨E, hE, h1, h2, fun name => ?_⟩
  by_cases hn : ∀ c ∈ D.components, c.name ≠ name
  · have hn' : ∀ c ∈ E.components, c.name ≠ name := by
      intro c' hc'
      obtain ⟨c, hc, hr⟩ := forall₂_right hf hc'
      obtain ⟨_, _, _, k, _⟩ := individualComponent_ok hr
      rw [k]; exact hn c hc
    rw [getSpan_absent hg hn (by omega), getSpan_absent hgE hn' (by omega), getSpan_absent hgE hn' (by omega)]
    exact ⟨rfl, rfl⟩
  · push Not at hn
    obtain ⟨c, hc, rfl⟩ := hn
    obtain ⟨c', hc', hr⟩ := forall₂_right hf.flip hc
    obtain ⟨n, o, k1, k2, k3, k4, k5, k6⟩ := individualComponent_ok hr
    have q := spanOf_extent (hg.divides c hc) hs k1
    have hel : elements c' 0 n.toNat = elements c o n.toNat := by
      unfold elements
      apply List.map_congr_left
      intro i _
      rw [k6, zero_add]
    have hdE := hgE.divides c' hc'
    rw [← k2, getSpan_mem hgE hc' (by omega), getSpan_mem hgE hc' (by omega), k2, getSpan_mem hg hc (by omega), q, (spanOf_all hdE).2, k4]
    have hx : extent c' ((0 : Nat) : Int).toNat = .ok (n, 0) := by
      rcases hdE with ⟨j1, j2, j3⟩ | ⟨j1, q, j2, _⟩
      · unfold extent; rw [if_pos j1, k3]; simp
      · rw [k5] at j2; cases j2
    have := spanOf_extent hdE (s := 0) (by omega) hx
    rw [show ((0 : Nat) : Int) = 0 from rfl] at this
    rw [this, hel]
    exact ⟨rfl, rfl⟩

/-- A slice of a batch in which every scenario has the same number of elements of a component (in particular: without index pointers) has the
scenarios of the batch, from the first on. -/
theorem slice_span_partial {D : Dataset} (hD : Made D) (node : Nat) {first last : Nat} (h1 : first < last) (h2 : last ≤ D.batchSize)
    (he : ∀ c ∈ D.components, EqualSizes D.batchSize c) :
    ∃ E, slice D node first last = .ok E ∧ E.isBatch = true ∧ E.batchSize = last - first ∧
      ∀ (name k : Nat), k < last - first → getSpan E name k = getSpan D name (first + k : Nat) := by
  have hg := made_good hD
  obtain ⟨F, hF, -⟩ := individual_span hD (by omega : first < D.batchSize)
  obtain ⟨-, hf, -, -, -⟩ := individual_ok hF
  have hE : slice D node first last = .ok { F with isBatch := true, batchSize := last - first, components := F.components.map fun c => { c with total := c.perScenario * ((last - first : Nat) : Int) } } := by
    unfold slice
    rw [if_neg (by omega), if_neg (by omega), hF]
  refine ⟨_, hE, rfl, rfl, fun name k hk => ?_⟩
  have hgE := good_slice hg hE
  have hf2 : List.Forall₂ (fun c c' => ∃ c0, individualComponent c first = .ok c0 ∧ c' = { c0 with total := c0.perScenario * ((last - first : Nat) : Int) })
      D.components (F.components.map fun c => { c with total := c.perScenario * ((last - first : Nat) : Int) }) := by
    rw [List.forall₂_map_right_iff]
    exact hf.imp fun c c' h => ⟨c', h, rfl⟩
  by_cases hn : ∀ c ∈ D.components, c.name ≠ name
  · rw [getSpan_absent hg hn (by omega), getSpan_absent hgE _ (by show (k : Int) < ((last - first : Nat) : Int); omega)]
    intro c' hc'
    obtain ⟨c, hc, c0, hr, rfl⟩ := forall₂_right hf2 hc'
    obtain ⟨_, _, _, k, _⟩ := individualComponent_ok hr
    show c0.name ≠ name
    rw [k]; exact hn c hc
  · push Not at hn
    obtain ⟨c, hc, rfl⟩ := hn
    obtain ⟨c', hc', c0, hr, rfl⟩ := forall₂_right hf2.flip hc
    obtain ⟨n, o, k1, k2, k3, k4, k5, k6⟩ := individualComponent_ok hr
    have hdiv := hg.divides c hc
    obtain ⟨n', o', e1, e2⟩ := extent_of hdiv (by omega : first + k < D.batchSize)
    -- equal sizes: the same size, and the offset grows by the size
    have hsz : n' = n ∧ o' = o + n * k ∧ 0 ≤ n := by
      obtain ⟨m, hm⟩ := he c hc
      unfold extent at k1 e1
      rcases hdiv with ⟨j1, j2, j3⟩ | ⟨j1, q, j2, j3, j4, j5, j6⟩
      · rw [if_pos j1] at k1 e1
        cases k1; cases e1
        refine ⟨rfl, ?_, j1⟩
        push_cast; ring
      · rw [if_neg (by omega), j2] at k1 e1
        have hall : ∀ i < D.batchSize, ∃ a, q[i]? = some a ∧ q[i + 1]? = some (a + m) := by
          intro i hi
          have := hm i hi
          unfold Holds at this
          rw [j2] at this
          obtain ⟨a, b, q1, q2, q3⟩ := this
          exact ⟨a, q1, by rw [q2, q3]; congr 1; ring⟩
        have hm0 : 0 ≤ m := by
          obtain ⟨a, b, q1, q2, q3⟩ := j6 first (by omega)
          obtain ⟨a', q4, q5⟩ := hall first (by omega)
          rw [q1] at q4; cases q4
          rw [q2] at q5; cases q5
          omega
        have hoff : ∀ i, i ≤ k → ∃ a, q[first + i]? = some a ∧ q[first + i + 1]? = some (a + m) ∧ (∀ a0, q[first]? = some a0 → a = a0 + m * i) := by
          intro i
          induction i with
          | zero =>
            intro _
            obtain ⟨a, q1, q2⟩ := hall first (by omega)
            refine ⟨a, q1, q2, fun a0 h => ?_⟩
            rw [q1] at h; cases h; simp
          | succ i ih =>
            intro hi
            obtain ⟨a, q1, q2, q3⟩ := ih (by omega)
            obtain ⟨a', q4, q5⟩ := hall (first + (i + 1)) (by omega)
            refine ⟨a', q4, q5, fun a0 h => ?_⟩
            rw [show first + (i + 1) = first + i + 1 by omega, q2] at q4
            cases q4
            rw [q3 a0 h]; push_cast; ring
        obtain ⟨a, q1, q2, q3⟩ := hoff k (le_refl _)
        obtain ⟨a0, q4, q5⟩ := hall first (by omega)
        simp only [q4, q5] at k1
        simp only [q1, q2] at e1
        cases k1; cases e1
        rw [q3 _ q4]
        refine ⟨by ring, by ring, by linarith⟩
    obtain ⟨rfl, rfl, hn0⟩ := hsz
    have hx : extent { c0 with total := c0.perScenario * ((last - first : Nat) : Int) } k = .ok (n', n' * k) := by
      unfold extent
      simp only [k3]
      rw [if_pos hn0]
    have hsp := spanOf_extent (hgE.divides _ hc') (s := k) (by show k < last - first; exact hk) hx
    have hname : c.name = ({ c0 with total := c0.perScenario * ((last - first : Nat) : Int) } : Component).name := k2.symm
    rw [getSpan_mem hg hc (by omega), hname, getSpan_mem hgE hc' (by show (k : Int) < ((last - first : Nat) : Int); omega), hsp, spanOf_extent hdiv (by omega) e1]
    congr 1
    unfold elements
    apply List.map_congr_left
    intro i _
    have : place { c0 with total := c0.perScenario * ((last - first : Nat) : Int) } (n' * k + i) = place c0 (n' * k + i) := rfl
    rw [this, k6]
    congr 1
    ring

/-- An empty slice is a batch without scenarios. -/
theorem slice_empty (D : Dataset) {node first : Nat} (h2 : first ≤ D.batchSize) (hn : D.info.hasComponent node = true) :
    ∃ E, slice D node first first = .ok E ∧ E.isBatch = true ∧ E.batchSize = 0 := by
  have : Divides (⟨D.info, true, 0, []⟩ : Dataset).batchSize 0 0 none := .inl ⟨le_refl _, rfl, by simp⟩
  refine ⟨{ D with isBatch := true, batchSize := 0, components := [] ++ [⟨node, 0, 0, none, [], none⟩] }, ?_, rfl, rfl⟩
  unfold slice
  rw [if_neg (by omega), if_pos rfl]
  show addBuffer ⟨D.info, true, 0, []⟩ node 0 0 none none = _
  exact addBuffer_of none this hn (by simp)

/-- Uniform datasets and the equivalent index-pointer datasets have the same spans. -/
theorem uniform_as_indptr {D D' : Dataset} (hD : Made D) (hD' : Made D') (h1 : D'.isBatch = D.isBatch) (h2 : D'.batchSize = D.batchSize)
    (hc : List.Forall₂ (Rewritten D.batchSize) D.components D'.components) (name : Nat) {s : Int} (hs : s < D.batchSize) :
    getSpan D' name s = getSpan D name s := by
  have hg := made_good hD
  have hg' := made_good hD'
  have hname : ∀ c c', Rewritten D.batchSize c c' → c'.name = c.name := by
    rintro c c' (rfl | ⟨_, _, _, h, _⟩)
    · rfl
    · exact h
  by_cases hn : ∀ c ∈ D.components, c.name ≠ name
  · rw [getSpan_absent hg hn hs, getSpan_absent hg' _ (by omega)]
    intro c' hc'
    obtain ⟨c, hcm, hr⟩ := forall₂_right hc hc'
    rw [hname c c' hr]; exact hn c hcm
  · push Not at hn
    obtain ⟨c, hcm, rfl⟩ := hn
    obtain ⟨c', hc', hr⟩ := forall₂_right hc.flip hcm
    rw [getSpan_mem hg hcm hs, ← hname c c' hr, getSpan_mem hg' hc' (by omega)]
    rcases hr with rfl | ⟨j1, j2, j3, j4, j5, j6, j7, p, j8, j9⟩
    · rfl
    · have hpl : ∀ i, place c' i = place c i := by intro i; unfold place; rw [j6, j7]
      have hra : ∀ a b, range c' a b = range c a b := by
        intro a b; unfold range
        split_ifs
        · rfl
        · congr 1; apply List.map_congr_left; intro i _; exact hpl _
      unfold spanOf
      by_cases h0 : s < 0
      · rw [if_pos h0, if_pos h0, j5, hra]
      · rw [if_neg h0, if_neg h0, if_pos j3, if_neg (by omega), j8]
        have e1 := j9 s.toNat (by omega)
        have e2 := j9 (s.toNat + 1) (by omega)
        simp only [e1, e2]
        rw [hra]
        congr 2
        · omega
        · push_cast; omega

/-- The check for equal numbers in every scenario is right, and the number is right. -/
theorem isUniform_iff {D : Dataset} (hD : Made D) (hb : 0 < D.batchSize) {c : Component} (hc : c ∈ D.components) :
    ∃ b n, isUniform c = .ok b ∧ uniformElements c = .ok n ∧ (b = true ↔ EqualSizes D.batchSize c) ∧ (b = true → ∀ s < D.batchSize, Holds c s n) := by
  have hg := made_good hD
  unfold isUniform uniformElements
  cases hi : c.indptr with
  | none =>
    have h : ∀ s < D.batchSize, Holds c s c.perScenario := by intro s _; unfold Holds; rw [hi]
    exact ⟨true, c.perScenario, rfl, rfl, ⟨fun _ => ⟨_, h⟩, fun _ => rfl⟩, fun _ => h⟩
  | some p =>
    have hl := hg.length c hc p hi
    obtain ⟨a, b, l, rfl⟩ : ∃ a b l, p = a :: b :: l := by
      cases p with
      | nil => simp at hl
      | cons a p =>
        cases p with
        | nil => simp at hl; omega
        | cons b l => exact ⟨a, b, l, rfl⟩
    have key : (((a :: b :: l).zip (b :: l)).all fun x => x.2 - x.1 == b - a) = true ↔ ∀ s < D.batchSize, Holds c s (b - a) := by
      rw [List.all_eq_true]
      simp only [Holds, hi]
      constructor
      · intro h s hs
        have g1 : (a :: b :: l)[s]? = some (a :: b :: l)[s] := List.getElem?_eq_getElem (by omega)
        have g2 : (a :: b :: l)[s + 1]? = some (a :: b :: l)[s + 1] := List.getElem?_eq_getElem (by omega)
        refine ⟨_, _, g1, g2, ?_⟩
        have hmem : ((a :: b :: l)[s], (a :: b :: l)[s + 1]) ∈ (a :: b :: l).zip (b :: l) := by
          rw [List.mem_iff_getElem?]
          refine ⟨s, ?_⟩
          rw [List.getElem?_zip_eq_some]
          exact ⟨g1, by rw [← g2]; rfl⟩
        have := h _ hmem
        simp only [beq_iff_eq] at this
        exact this.symm
      · rintro h ⟨x, y⟩ hx
        rw [List.mem_iff_getElem?] at hx
        obtain ⟨s, hs⟩ := hx
        rw [List.getElem?_zip_eq_some] at hs
        have hlt : s < D.batchSize := by
          by_contra hlt
          have hnone : (b :: l)[s]? = none := List.getElem?_eq_none (by simp only [List.length_cons] at hl ⊢; omega)
          rw [hnone] at hs
          cases hs.2
        obtain ⟨x', y', q1, q2, q3⟩ := h s hlt
        rw [q1] at hs
        rw [List.getElem?_cons_succ] at q2
        rw [q2] at hs
        obtain ⟨r1, r2⟩ := hs
        cases r1; cases r2
        simp only [beq_iff_eq]
        exact q3.symm
    refine ⟨_, _, rfl, rfl, ?_, key.mp⟩
    rw [key]
    refine ⟨fun h => ⟨_, h⟩, ?_⟩
    rintro ⟨n, hn⟩ s hs
    have h0 := hn 0 hb
    simp only [Holds, hi] at h0
    obtain ⟨x, y, q1, q2, q3⟩ := h0
    simp at q1 q2
    subst q1; subst q2; subst q3
    exact hn s hs

/-! ## A slice of a dataset with an index pointer -/

/-- Meta data that knows every name. -/
def anyMeta : Meta := ⟨fun _ => true, fun _ _ => true⟩

/-- A batch of three scenarios. -/
def base : Dataset := ⟨anyMeta, true, 3, []⟩

/-- With 1, 0 and 2 elements of component 7. -/
def sparse : Dataset := ⟨anyMeta, true, 3, [⟨7, -1, 3, some ⟨0, 0⟩, [], some [0, 1, 1, 3]⟩]⟩

theorem base_made : Made base := .create (M := anyMeta) (b := true) (n := 3) rfl

theorem sparse_made : Made sparse := base_made.addBuffer (name := 7) (e := -1) (t := 3) (p := some [0, 1, 1, 3]) (data := some ⟨0, 0⟩) (by
  rfl)

/-- The assertion of line 535 is needed: without it (release build) the slice of a dataset with an index pointer shows other elements. Here scenario 1
has no element, and the slice says that it has one. -/
theorem slice_indptr_wrong : ∃ (D E : Dataset) (node first last name k : Nat), Made D ∧ slice D node first last = .ok E ∧ first < last ∧
    last ≤ D.batchSize ∧ k < last - first ∧ getSpan E name k ≠ getSpan D name (first + k : Nat) := by
  refine ⟨sparse, ⟨anyMeta, true, 2, [⟨7, 1, 2, some ⟨0, 0⟩, [], none⟩]⟩, 7, 0, 2, 7, 1, sparse_made, rfl, by decide, by decide, by decide, ?_⟩
  have h1 : getSpan ⟨anyMeta, true, 2, [⟨7, 1, 2, some ⟨0, 0⟩, [], none⟩]⟩ 7 (1 : Nat) = .ok [.row ⟨0, 1⟩] := rfl
  have h2 : getSpan sparse 7 (0 + 1 : Nat) = .ok [] := rfl
  rw [h1, h2]
  intro h
  cases h

/-! ## Cases that meet the hypotheses -/

/-- A batch of three scenarios with a uniform row-based component and a sparse columnar one. -/
example : ∃ D, Made D ∧ D.batchSize = 3 ∧ (∃ c ∈ D.components, c.name = 7 ∧ c.data ≠ none) ∧
    (∃ c ∈ D.components, c.name = 8 ∧ ∃ a ∈ c.attributes, a.data ≠ none) ∧
    (getSpan D 7 1 = .ok [.row ⟨5, 2⟩, .row ⟨5, 3⟩]) ∧ (getSpan D 8 2 = .ok [.column [(0, some ⟨6, 1⟩)], .column [(0, some ⟨6, 2⟩)]]) := by
  let D1 : Dataset := ⟨anyMeta, true, 3, [⟨7, 2, 6, some ⟨5, 0⟩, [], none⟩]⟩
  let D2 : Dataset := ⟨anyMeta, true, 3, [⟨7, 2, 6, some ⟨5, 0⟩, [], none⟩, ⟨8, -1, 3, none, [], some [0, 1, 1, 3]⟩]⟩
  let D3 : Dataset := ⟨anyMeta, true, 3, [⟨7, 2, 6, some ⟨5, 0⟩, [], none⟩, ⟨8, -1, 3, none, [⟨0, some ⟨6, 0⟩⟩], some [0, 1, 1, 3]⟩]⟩
  have h1 : Made D1 := base_made.addBuffer (name := 7) (e := 2) (t := 6) (p := none) (data := some ⟨5, 0⟩) rfl
  have h2 : Made D2 := h1.addBuffer (name := 8) (e := -1) (t := 3) (p := some [0, 1, 1, 3]) (data := none) rfl
  have h3 : Made D3 := h2.addAttribute (name := 8) (attr := 0) (data := some ⟨6, 0⟩) rfl
  refine ⟨D3, h3, rfl, ⟨_, List.mem_cons_self, rfl, by simp⟩, ⟨_, List.mem_cons_of_mem _ List.mem_cons_self, rfl, _, List.mem_cons_self, by simp⟩, rfl, rfl⟩

/-- An index pointer of equal steps beside the uniform component that it replaces. -/
example : Rewritten 3 ⟨7, 2, 6, some ⟨5, 0⟩, [], none⟩ ⟨7, -1, 6, some ⟨5, 0⟩, [], some [0, 2, 4, 6]⟩ := by
  refine .inr ⟨by decide, rfl, by decide, rfl, rfl, rfl, rfl, _, rfl, ?_⟩
  decide

/-- A component with equal numbers by an index pointer can be sliced. -/
example : EqualSizes 3 ⟨7, -1, 6, some ⟨5, 0⟩, [], some [0, 2, 4, 6]⟩ := by
  refine ⟨2, ?_⟩
  intro s hs
  have : s = 0 ∨ s = 1 ∨ s = 2 := by omega
  rcases this with rfl | rfl | rfl
  · exact ⟨0, 2, rfl, rfl, rfl⟩
  · exact ⟨2, 4, rfl, rfl, rfl⟩
  · exact ⟨4, 6, rfl, rfl, rfl⟩

end PGM.Datasets
