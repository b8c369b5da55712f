import Verif.TapRank.Graph

/-!
# The weights of the edges and the groups
-/

namespace PGM.TapRank

/-! ## Weights -/

/-- The entry that an edge adds. -/
def Gives (d : Dist) (e : Edge) (x : Ranked) : Prop :=
  ∃ a b, e.reg = some x.trafo ∧ d e.src = some a ∧ d e.tgt = some b ∧ x.id = e.id ∧
    x.rank = if a + 1 = b then some b else none

/-- The edge is reported. -/
def Wrong (d : Dist) (e : Edge) : Prop := e.reg ≠ none ∧ (d e.src).isSome ≠ (d e.tgt).isSome

theorem weightStep_mem (d : Dist) (acc : List Ranked × List Int) (e : Edge) :
    (∀ x, x ∈ (weightStep d acc e).1 ↔ x ∈ acc.1 ∨ Gives d e x) ∧
    (∀ i, i ∈ (weightStep d acc e).2 ↔ i ∈ acc.2 ∨ (Wrong d e ∧ e.id = i)) := by
  unfold weightStep Gives Wrong
  cases hr : e.reg with
  | none => simp
  | some t =>
    cases hs : d e.src with
    | none =>
      cases ht : d e.tgt with
      | none => simp
      | some b => simp [eq_comm]
    | some a =>
      cases ht : d e.tgt with
      | none => simp [eq_comm]
      | some b =>
        simp only [ne_eq, ite_not]
        by_cases hab : a + 1 = b
        · simp only [if_pos hab]
          constructor
          · intro x
            simp only [List.mem_append, List.mem_singleton, Option.some.injEq]
            constructor
            · rintro (h | rfl)
              · exact Or.inl h
              · exact Or.inr ⟨a, b, rfl, rfl, rfl, rfl, by rw [if_pos hab]⟩
            · rintro (h | ⟨a', b', h1, h2, h3, h4, h5⟩)
              · exact Or.inl h
              · subst h2 h3
                rw [if_pos hab] at h5
                right
                cases x
                simp_all
          · simp
        · simp only [if_neg hab]
          constructor
          · intro x
            simp only [List.mem_append, List.mem_singleton, Option.some.injEq]
            constructor
            · rintro (h | rfl)
              · exact Or.inl h
              · exact Or.inr ⟨a, b, rfl, rfl, rfl, rfl, by rw [if_neg hab]⟩
            · rintro (h | ⟨a', b', h1, h2, h3, h4, h5⟩)
              · exact Or.inl h
              · subst h2 h3
                rw [if_neg hab] at h5
                right
                cases x
                simp_all
          · simp

theorem weights_mem (d : Dist) (l : List Edge) : ∀ acc : List Ranked × List Int,
    (∀ x, x ∈ (l.foldl (weightStep d) acc).1 ↔ x ∈ acc.1 ∨ ∃ e ∈ l, Gives d e x) ∧
    (∀ i, i ∈ (l.foldl (weightStep d) acc).2 ↔ i ∈ acc.2 ∨ ∃ e ∈ l, Wrong d e ∧ e.id = i) := by
  induction l with
  | nil => intro acc; simp
  | cons e l ih =>
    intro acc
    rw [List.foldl_cons]
    obtain ⟨h1, h2⟩ := ih (weightStep d acc e)
    obtain ⟨h3, h4⟩ := weightStep_mem d acc e
    constructor
    · intro x
      rw [h1, h3]
      simp only [List.mem_cons, exists_eq_or_imp]
      exact or_assoc
    · intro i
      rw [h2, h4]
      simp only [List.mem_cons, exists_eq_or_imp]
      exact or_assoc

theorem mem_allEdges {n : Nat} {es : List Edge} (h : ∀ e ∈ es, e.src < n) (e : Edge) : e ∈ allEdges n es ↔ e ∈ es := by
  simp only [allEdges, List.mem_flatMap, List.mem_range, outEdges, List.mem_filter, decide_eq_true_eq]
  constructor
  · rintro ⟨_, _, h, _⟩; exact h
  · intro he; exact ⟨e.src, h e he, he, rfl⟩

theorem mem_insertId (x y : Int) (l : List Int) : y ∈ insertId x l ↔ y = x ∨ y ∈ l := by
  induction l with
  | nil => simp [insertId]
  | cons z l ih =>
    simp only [insertId]
    split
    · simp
    · split
      · rename_i h; subst h; simp
      · simp only [List.mem_cons, ih]; tauto

theorem insertId_sorted (x : Int) (l : List Int) (h : l.Pairwise (· < ·)) : (insertId x l).Pairwise (· < ·) := by
  induction l with
  | nil => simp [insertId]
  | cons z l ih =>
    simp only [insertId]
    have hz := List.pairwise_cons.1 h
    split
    · rename_i hx
      refine List.pairwise_cons.2 ⟨?_, h⟩
      intro y hy
      rcases List.mem_cons.1 hy with rfl | hy
      · exact hx
      · exact Int.lt_trans hx (hz.1 y hy)
    · split
      · exact h
      · refine List.pairwise_cons.2 ⟨?_, ih hz.2⟩
        intro y hy
        rcases (mem_insertId _ _ _).1 hy with rfl | hy
        · omega
        · exact hz.1 y hy

theorem ids_sorted (l : List Int) : (l.foldr insertId []).Pairwise (· < ·) ∧ ∀ i, i ∈ l.foldr insertId [] ↔ i ∈ l := by
  induction l with
  | nil => simp
  | cons x l ih =>
    rw [List.foldr_cons]
    refine ⟨insertId_sorted _ _ ih.1, fun i => ?_⟩
    rw [mem_insertId, ih.2, List.mem_cons]

/-! ## Groups -/

theorem rankLT_iff (a b : Option Nat) : rankLT a b = true ↔ Before a b := by
  cases a <;> cases b <;> simp [rankLT, Before]

theorem before_trichotomy (a b : Option Nat) (h1 : ¬ Before a b) (h2 : ¬ Before b a) : a = b := by
  cases a <;> cases b <;> simp_all [Before]
  omega

/-- The groups with their ranks, the last one first. -/
structure GroupsInv (done : List Ranked) (gs : List (Option Nat × List TIdx)) : Prop where
  sorted : gs.Pairwise (fun x y => Before y.1 x.1)
  content : ∀ r t, (∃ g, (r, g) ∈ gs ∧ t ∈ g) ↔ ∃ x ∈ done, x.trafo = t ∧ x.rank = r
  nodup : ∀ p ∈ gs, p.2.Nodup ∧ p.2 ≠ []

theorem group_step {done : List Ranked} {gs : List (Option Nat × List TIdx)} (h : GroupsInv done gs) (x : Ranked)
    (hx : ∀ y ∈ done, ¬ Before x.rank y.rank) :
    ∃ gs', GroupsInv (done ++ [x]) gs' ∧
      groupStep (gs.map (·.2), gs.head?.map (·.1)) x = (gs'.map (·.2), gs'.head?.map (·.1)) := by
  -- the rank of a group is the rank of one of the entries
  have hrank : ∀ p ∈ gs, ∃ y ∈ done, y.rank = p.1 := by
    intro p hp
    obtain ⟨t, ht⟩ := List.exists_mem_of_ne_nil _ (h.nodup p hp).2
    obtain ⟨y, hy, _, hyr⟩ := (h.content p.1 t).1 ⟨p.2, hp, ht⟩
    exact ⟨y, hy, hyr⟩
  unfold groupStep
  by_cases ha : isAbove (gs.head?.map (·.1)) x.rank = true
  · rw [if_pos ha]
    refine ⟨(x.rank, [x.trafo]) :: gs, ⟨?_, ?_, ?_⟩, by simp⟩
    · refine List.pairwise_cons.2 ⟨?_, h.sorted⟩
      intro p hp
      cases gs with
      | nil => simp at hp
      | cons q gs =>
        simp only [List.head?_cons, Option.map_some, isAbove, rankLT_iff] at ha
        rcases List.mem_cons.1 hp with rfl | hp
        · exact ha
        · have := (List.pairwise_cons.1 h.sorted).1 p hp
          show Before p.1 x.rank
          revert this ha
          cases p.1 <;> cases q.1 <;> cases x.rank <;> simp [Before]
          omega
    · intro r t
      have := h.content r t
      constructor
      · rintro ⟨g, hg, ht⟩
        rcases List.mem_cons.1 hg with e | hg
        · cases e
          simp only [List.mem_cons, List.not_mem_nil, or_false] at ht
          exact ⟨x, by simp, ht.symm, rfl⟩
        · obtain ⟨y, hy, h1⟩ := this.1 ⟨g, hg, ht⟩
          exact ⟨y, by simp [hy], h1⟩
      · rintro ⟨y, hy, h1, h2⟩
        rcases List.mem_append.1 hy with hy | hy
        · obtain ⟨g, hg, ht⟩ := this.2 ⟨y, hy, h1, h2⟩
          exact ⟨g, List.mem_cons_of_mem _ hg, ht⟩
        · simp only [List.mem_singleton] at hy
          subst hy
          exact ⟨[y.trafo], by simp [h2], by simp [h1]⟩
    · intro p hp
      rcases List.mem_cons.1 hp with rfl | hp
      · simp
      · exact h.nodup p hp
  · rw [if_neg ha]
    cases gs with
    | nil => simp [isAbove] at ha
    | cons q gs =>
      simp only [List.head?_cons, Option.map_some, isAbove, rankLT_iff] at ha
      have hq : x.rank = q.1 := by
        obtain ⟨y, hy, hyr⟩ := hrank q List.mem_cons_self
        exact before_trichotomy _ _ (hyr ▸ hx y hy) ha
      have hother : ∀ g, (x.rank, g) ∈ gs → False := by
        intro g hg
        have := (List.pairwise_cons.1 h.sorted).1 _ hg
        rw [← hq] at this
        revert this
        cases x.rank <;> simp [Before]
      simp only [List.map_cons, List.head?_cons, Option.map_some]
      by_cases hm : x.trafo ∈ q.2
      · rw [if_pos hm]
        refine ⟨q :: gs, ⟨h.sorted, ?_, h.nodup⟩, by simp⟩
        intro r t
        rw [h.content r t]
        constructor
        · rintro ⟨y, hy, h1⟩; exact ⟨y, by simp [hy], h1⟩
        · rintro ⟨y, hy, h1, h2⟩
          rcases List.mem_append.1 hy with hy | hy
          · exact ⟨y, hy, h1, h2⟩
          · simp only [List.mem_singleton] at hy
            subst hy
            exact (h.content r t).1 ⟨q.2, by rw [← h2, hq]; exact List.mem_cons_self, h1 ▸ hm⟩
      · rw [if_neg hm]
        refine ⟨(q.1, q.2 ++ [x.trafo]) :: gs, ⟨?_, ?_, ?_⟩, by simp⟩
        · exact List.pairwise_cons.2 ⟨(List.pairwise_cons.1 h.sorted).1, (List.pairwise_cons.1 h.sorted).2⟩
        · intro r t
          have := h.content r t
          constructor
          · rintro ⟨g, hg, ht⟩
            rcases List.mem_cons.1 hg with e | hg
            · cases e
              rcases List.mem_append.1 ht with ht | ht
              · obtain ⟨y, hy, h1⟩ := this.1 ⟨q.2, List.mem_cons_self, ht⟩
                exact ⟨y, by simp [hy], h1⟩
              · simp only [List.mem_singleton] at ht
                exact ⟨x, by simp, ht.symm, hq⟩
            · obtain ⟨y, hy, h1⟩ := this.1 ⟨g, List.mem_cons_of_mem _ hg, ht⟩
              exact ⟨y, by simp [hy], h1⟩
          · rintro ⟨y, hy, h1, h2⟩
            rcases List.mem_append.1 hy with hy | hy
            · obtain ⟨g, hg, ht⟩ := this.2 ⟨y, hy, h1, h2⟩
              rcases List.mem_cons.1 hg with e | hg
              · cases e
                exact ⟨_, List.mem_cons_self, List.mem_append_left _ ht⟩
              · exact ⟨g, List.mem_cons_of_mem _ hg, ht⟩
            · simp only [List.mem_singleton] at hy
              subst hy
              refine ⟨q.2 ++ [y.trafo], ?_, by simp [h1]⟩
              rw [← h2, hq]
              exact List.mem_cons_self
        · intro p hp
          rcases List.mem_cons.1 hp with rfl | hp
          · refine ⟨?_, by simp⟩
            refine List.nodup_append.2 ⟨(h.nodup q List.mem_cons_self).1, by simp, ?_⟩
            intro a ha b hb e
            simp only [List.mem_singleton] at hb
            exact hm (hb ▸ e ▸ ha)
          · exact h.nodup p (List.mem_cons_of_mem _ hp)

theorem group_fold (l : List Ranked) : ∀ (done : List Ranked) (gs : List (Option Nat × List TIdx)), GroupsInv done gs →
    (∀ x ∈ l, ∀ y ∈ done, ¬ Before x.rank y.rank) → l.Pairwise (fun x y => ¬ Before y.rank x.rank) →
    ∃ gs', GroupsInv (done ++ l) gs' ∧
      (l.foldl groupStep (gs.map (·.2), gs.head?.map (·.1))).1 = gs'.map (·.2) := by
  induction l with
  | nil => intro done gs h _ _; exact ⟨gs, by simpa using h, rfl⟩
  | cons x l ih =>
    intro done gs h hx hl
    obtain ⟨gs', h', e⟩ := group_step h x (hx x List.mem_cons_self)
    have hl' := List.pairwise_cons.1 hl
    obtain ⟨gs'', h'', e'⟩ := ih (done ++ [x]) gs' h' (by
      intro z hz y hy
      rcases List.mem_append.1 hy with hy | hy
      · exact hx z (List.mem_cons_of_mem _ hz) y hy
      · simp only [List.mem_singleton] at hy
        subst hy
        exact hl'.1 z hz) hl'.2
    refine ⟨gs'', by simpa using h'', ?_⟩
    rw [List.foldl_cons, e]
    exact e'

/-- The groups are the classes of equal rank, in the order of the ranks. -/
theorem groups_correct {sort : List Ranked → List Ranked} (hs : Sorts sort) (l : List Ranked) :
    ∃ gs : List (Option Nat × List TIdx), groups sort l = gs.map (·.2) ∧ gs.Pairwise (fun x y => Before x.1 y.1) ∧
      (∀ r t, (∃ g, (r, g) ∈ gs ∧ t ∈ g) ↔ ∃ x ∈ l, x.trafo = t ∧ x.rank = r) ∧
      (∀ p ∈ gs, p.2.Nodup ∧ p.2 ≠ []) := by
  obtain ⟨hp, hsorted⟩ := hs l
  obtain ⟨gs, h, e⟩ := group_fold (sort l) [] [] ⟨by simp, by simp, by simp⟩ (by simp) hsorted
  refine ⟨gs.reverse, ?_, List.pairwise_reverse.2 h.sorted, ?_, ?_⟩
  · unfold groups
    rw [List.map_reverse, ← e]
    rfl
  · intro r t
    have := h.content r t
    simp only [List.nil_append, hp.mem_iff] at this
    simpa using this
  · intro p hp'
    exact h.nodup p (List.mem_reverse.1 hp')

end PGM.TapRank
