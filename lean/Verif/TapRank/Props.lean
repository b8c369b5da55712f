import Verif.TapRank.Groups

/-!
# C26: the ranks of the regulated transformers

`HasRank` (file `Spec.lean`) speaks of paths through the components of the grid. The two conditions of `Regular` are needed:
the theorems at the end show grids that violate them and are ranked wrongly.
-/

namespace PGM.TapRank

theorem Best.unique {G : Grid} {v k k' : Nat} (h : Best G v k) (h' : Best G v k') : k = k' :=
  Nat.le_antisymm (h.2 _ h'.1) (h'.2 _ h.1)

theorem Best.of_joined {G : Grid} {a b k : Nat} (h : Best G a k) (hj : Joined G a b) : Best G b k :=
  ⟨.join h.1 hj, fun _ hp => h.2 _ (.join hp hj.symm)⟩

theorem supplied_best {G : Grid} {v : Nat} (h : Supplied G v) : ∃ k, Best G v k := by
  classical
  obtain ⟨k, hk⟩ := h
  induction k using Nat.strong_induction_on with
  | _ k ih =>
    by_cases hb : Best G v k
    · exact ⟨k, hb⟩
    · simp only [Best, hk, true_and, not_forall] at hb
      obtain ⟨k', hp, hlt⟩ := hb
      exact ih k' (by omega) hp

/-- Two directions in which a transformer regulates join the same groups of nodes. -/
theorem regulates_joined {G : Grid} (h : Valid G) {t : TIdx} {id id' : Int} {a b a' b' : Nat}
    (h1 : Regulates G t id a b) (h2 : Regulates G t id' a' b') :
    (a = a' ∨ Joined G a a') ∧ (b = b' ∨ Joined G b b') := by
  cases h1 with
  | fromSide ht hc hr =>
    cases h2 with
    | fromSide ht' _ _ => rw [ht] at ht'; cases ht'; exact ⟨Or.inl rfl, Or.inl rfl⟩
    | toSide ht' _ hr' => rw [ht] at ht'; cases ht'; exact absurd (h.side_unique hr hr') (by decide)
  | toSide ht hc hr =>
    cases h2 with
    | fromSide ht' _ hr' => rw [ht] at ht'; cases ht'; exact absurd (h.side_unique hr hr') (by decide)
    | toSide ht' _ _ => rw [ht] at ht'; cases ht'; exact ⟨Or.inl rfl, Or.inl rfl⟩
  | tapControlled ht hx h1 h2' hr =>
    rename_i p u x
    cases h2 with
    | @tapControlled _ u' x' ht' hx' _ h2'' _ =>
      rw [ht] at ht'
      cases ht'
      refine ⟨?_, Or.inl rfl⟩
      by_cases e : x = x'
      · left; rw [e]
      · right; exact .trafo3 (List.mem_of_getElem? ht) e h2' h2'' (Or.inr ⟨hx, hx'⟩)
    | otherControlled ht' _ _ _ hr' hc =>
      rw [ht] at ht'; cases ht'; exact absurd (h.side_unique hr' hr) hc
  | otherControlled ht hx h1 h2' hr hc =>
    rename_i p u x c
    cases h2 with
    | tapControlled ht' _ _ _ hr' => rw [ht] at ht'; cases ht'; exact absurd (h.side_unique hr hr') hc
    | @otherControlled _ u' x' c' ht' hx' _ h2'' _ _ =>
      rw [ht] at ht'
      cases ht'
      refine ⟨Or.inl rfl, ?_⟩
      by_cases e : x = x'
      · left; rw [e]
      · right; exact .trafo3 (List.mem_of_getElem? ht) e h2' h2'' (Or.inr ⟨hx, hx'⟩)

/-- C26: a regulated transformer has at most one rank, also a three-winding transformer. -/
theorem rank_unique {G : Grid} (h : Valid G) {t : TIdx} {r r' : Option Nat} (h1 : HasRank G t r) (h2 : HasRank G t r') :
    r = r' := by
  obtain ⟨id, a, b, ka, kb, hr, ha, hb, hk⟩ := h1
  obtain ⟨id', a', b', ka', kb', hr', ha', hb', hk'⟩ := h2
  obtain ⟨e1, e2⟩ := regulates_joined h hr hr'
  have ea : ka = ka' := by
    rcases e1 with rfl | e1
    · exact ha.unique ha'
    · exact (ha.of_joined e1).unique ha'
  have eb : kb = kb' := by
    rcases e2 with rfl | e2
    · exact hb.unique hb'
    · exact (hb.of_joined e2).unique hb'
  subst ea eb
  rcases hk with ⟨h1, rfl⟩ | ⟨h1, rfl⟩ <;> rcases hk' with ⟨h2, rfl⟩ | ⟨h2, rfl⟩ <;> first | rfl | omega

/-- The result of `edgeWeights` in terms of the specification. -/
theorem edgeWeights_spec {G : Grid} (h : Valid G) (hg : Regular G) (fuel : Nat) :
    (∀ l, edgeWeights G fuel = .ok l → (∀ t r, (∃ x ∈ l, x.trafo = t ∧ x.rank = r) ↔ HasRank G t r) ∧
      ∀ id, ¬ WrongSide G id) ∧
    (∀ ids, edgeWeights G fuel = .wrongSide ids → ids ≠ [] ∧ ids.Pairwise (· < ·) ∧ ∀ id, id ∈ ids ↔ WrongSide G id) := by
  unfold edgeWeights
  cases hd : distances (isSource G) G.nodes (graphEdges G) fuel with
  | none => simp
  | some d =>
    obtain ⟨hb, hn⟩ := distances_best h hg hd
    simp only
    have hmem := mem_allEdges (fun e he => (edges_range h e he).1)
    obtain ⟨h1, h2⟩ := weights_mem d (allEdges G.nodes (graphEdges G)) ([], [])
    generalize (allEdges G.nodes (graphEdges G)).foldl (weightStep d) ([], []) = r at h1 h2 ⊢
    simp only [List.not_mem_nil, false_or, hmem] at h1 h2
    have hsup : ∀ v, (d v).isSome = true ↔ Supplied G v := by
      intro v
      cases hv : d v with
      | none => simp [(hn v).1 hv]
      | some k =>
        simp only [Option.isSome_some, true_iff]
        exact ⟨k, ((hb v k).1 hv).1⟩
    have hwrong : ∀ id, id ∈ r.2 ↔ WrongSide G id := by
      intro id
      rw [h2]
      constructor
      · rintro ⟨e, he, ⟨hreg, hne⟩, rfl⟩
        have hm := edges_mean h e he
        unfold Means at hm
        cases hr : e.reg with
        | none => exact absurd hr hreg
        | some t =>
          rw [hr] at hm
          refine ⟨t, e.src, e.tgt, hm.2, ?_⟩
          by_cases hs : Supplied G e.src
          · exfalso
            apply hne
            have ht : Supplied G e.tgt := by obtain ⟨k, hk⟩ := hs; exact ⟨_, .cross hk hm.2⟩
            rw [(hsup _).2 hs, (hsup _).2 ht]
          · refine ⟨?_, hs⟩
            by_contra ht
            apply hne
            rw [Bool.eq_false_iff.2 (fun hh => hs ((hsup _).1 hh)), Bool.eq_false_iff.2 (fun hh => ht ((hsup _).1 hh))]
      · rintro ⟨t, a, b, hr, hsb, hsa⟩
        refine ⟨_, regulates_edge h hr, ⟨by simp, ?_⟩, rfl⟩
        simp only [ne_eq]
        rw [(hsup _).2 hsb, Bool.eq_false_iff.2 (fun hh => hsa ((hsup _).1 hh))]
        decide
    by_cases hr2 : r.2 = []
    · rw [if_neg (by simpa using hr2)]
      refine ⟨?_, by simp⟩
      intro l hl
      injection hl with hl
      subst hl
      constructor
      · intro t rk
        constructor
        · rintro ⟨x, hx, rfl, rfl⟩
          obtain ⟨e, he, a, b, hreg, ha, hb', hid, hrank⟩ := (h1 x).1 hx
          have hm := edges_mean h e he
          unfold Means at hm
          rw [hreg] at hm
          have hle : b ≤ a + 1 := ((hb _ _).1 hb').2 _ (.cross ((hb _ _).1 ha).1 hm.2)
          refine ⟨e.id, e.src, e.tgt, a, b, hm.2, (hb _ _).1 ha, (hb _ _).1 hb', ?_⟩
          rw [hrank]
          by_cases hab : a + 1 = b
          · left; exact ⟨hab.symm, by rw [if_pos hab]⟩
          · right; exact ⟨by omega, by rw [if_neg hab]⟩
        · rintro ⟨id, a, b, ka, kb, hr, ha, hb', hk⟩
          refine ⟨⟨t, rk, id⟩, (h1 _).2 ⟨_, regulates_edge h hr, ka, kb, rfl, (hb _ _).2 ha, (hb _ _).2 hb', rfl, ?_⟩, rfl, rfl⟩
          rcases hk with ⟨h3, h4⟩ | ⟨h3, h4⟩
          · rw [if_pos h3.symm]; exact h4
          · rw [if_neg (by omega)]; exact h4
      · intro id hw
        have := (hwrong id).2 hw
        rw [hr2] at this
        simp at this
    · rw [if_pos (by simpa using hr2)]
      refine ⟨by simp, ?_⟩
      intro ids hids
      injection hids with hids
      subst hids
      obtain ⟨hsort, hmem'⟩ := ids_sorted r.2
      refine ⟨?_, hsort, fun id => (hmem' id).trans (hwrong id)⟩
      intro e
      obtain ⟨i, hi⟩ := List.exists_mem_of_ne_nil _ hr2
      have := (hmem' i).2 hi
      rw [e] at this
      simp at this

/-- C26: the ranking ends for every model. -/
theorem rank_total {G : Grid} (h : Valid G) (sort : List Ranked → List Ranked) :
    ∃ N o, o ≠ .running ∧ ∀ fuel, N ≤ fuel → rankTransformers sort fuel G = o := by
  obtain ⟨N, d, hd⟩ := distances_end (fun e he => (edges_range h e he).2) (isSource G)
  refine ⟨N, rankTransformers sort N G, ?_, fun fuel hf => ?_⟩
  · unfold rankTransformers edgeWeights
    rw [hd N (Nat.le_refl _)]
    simp only
    by_cases hc : (List.foldl (weightStep d) ([], []) (allEdges G.nodes (graphEdges G))).2 ≠ []
    · rw [if_pos hc]; simp
    · rw [if_neg hc]; simp
  · unfold rankTransformers edgeWeights
    rw [hd N (Nat.le_refl _), hd fuel hf]

/-- C26 (partial: for `Regular` grids). If the ranking succeeds, its groups are the sets of transformers of equal rank in the
order of the ranks, where the rank is the number of regulated transformers on the best path from a source. -/
theorem ranks_correct_partial {G : Grid} (h : Valid G) (hg : Regular G) {sort : List Ranked → List Ranked} (hs : Sorts sort)
    {fuel : Nat} {gs : List (List TIdx)} (hr : rankTransformers sort fuel G = .ok gs) :
    OrderedByRank (HasRank G) gs ∧ gs.flatten.Nodup := by
  unfold rankTransformers at hr
  cases hw : edgeWeights G fuel with
  | wrongSide ids => rw [hw] at hr; cases hr
  | running => rw [hw] at hr; cases hr
  | ok l =>
    rw [hw] at hr
    injection hr with hr
    subst hr
    have hspec := ((edgeWeights_spec h hg fuel).1 l hw).1
    obtain ⟨ps, e, hsorted, hcont, hnd⟩ := groups_correct hs l
    have hclass : ∀ p ∈ ps, ∀ t, t ∈ p.2 ↔ HasRank G t p.1 := by
      intro p hp t
      rw [← hspec, ← hcont]
      constructor
      · intro ht; exact ⟨p.2, hp, ht⟩
      · rintro ⟨g, hg', ht⟩
        have : (p.1, g) = p := by
          by_contra hne
          rcases List.pairwise_iff_getElem.1 hsorted with hpw
          obtain ⟨i, hi, ei⟩ := List.mem_iff_getElem.1 hp
          obtain ⟨j, hj, ej⟩ := List.mem_iff_getElem.1 hg'
          have irr : ∀ x : Option Nat, ¬ Before x x := by intro x; cases x <;> simp [Before]
          rcases Nat.lt_trichotomy i j with hij | hij | hij
          · have := hpw i j hi hj hij
            rw [ei, ej] at this
            exact irr _ this
          · subst hij
            exact hne (ej.symm.trans ei)
          · have := hpw j i hj hi hij
            rw [ei, ej] at this
            exact irr _ this
        rw [← this]
        exact ht
    rw [e]
    refine ⟨⟨ps.map (·.1), by simp, List.pairwise_map.2 hsorted, ?_, ?_⟩, ?_⟩
    · intro i r g h1 h2
      rw [List.getElem?_map] at h1 h2
      cases hp : ps[i]? with
      | none => rw [hp] at h1; cases h1
      | some p =>
        rw [hp] at h1 h2
        cases h1
        cases h2
        have hpm := List.mem_of_getElem? hp
        exact ⟨(hnd p hpm).2, (hnd p hpm).1, hclass p hpm⟩
    · intro t r hr
      obtain ⟨g, hg', _⟩ := (hcont r t).2 ((hspec t r).2 hr)
      exact List.mem_map.2 ⟨_, hg', rfl⟩
    · rw [List.nodup_flatten]
      refine ⟨?_, ?_⟩
      · intro g hg'
        obtain ⟨p, hp, rfl⟩ := List.mem_map.1 hg'
        exact (hnd p hp).1
      · rw [List.pairwise_map]
        refine hsorted.imp_of_mem ?_
        intro p q hp hq hpq t ht1 ht2
        have e1 := rank_unique h ((hclass p hp t).1 ht1) ((hclass q hq t).1 ht2)
        rw [e1] at hpq
        revert hpq
        cases q.1 <;> simp [Before]

/-- C26 (partial: for `Regular` grids). The ranking fails if and only if some transformer is controlled against the direction
of supply, and the error names all of these transformers, each once. -/
theorem wrong_side_reported_partial {G : Grid} (h : Valid G) (hg : Regular G) (sort : List Ranked → List Ranked) (fuel : Nat) :
    (∀ gs, rankTransformers sort fuel G = .ok gs → ∀ id, ¬ WrongSide G id) ∧
    (∀ ids, rankTransformers sort fuel G = .wrongSide ids →
      ids ≠ [] ∧ ids.Pairwise (· < ·) ∧ ∀ id, id ∈ ids ↔ WrongSide G id) := by
  have hspec := edgeWeights_spec h hg fuel
  unfold rankTransformers
  cases hw : edgeWeights G fuel with
  | ok l => exact ⟨fun _ _ => (hspec.1 l hw).2, by simp⟩
  | wrongSide ids =>
    refine ⟨by simp, fun ids' e => ?_⟩
    injection e with e
    subst e
    exact hspec.2 ids hw
  | running => simp

/-- C26 (partial: for `Regular` grids). Every regulated transformer that is connected to an active source, in whatever
direction, is ranked exactly once. -/
theorem reached_ranked_partial {G : Grid} (h : Valid G) (hg : Regular G) {sort : List Ranked → List Ranked} (hs : Sorts sort)
    {fuel : Nat} {gs : List (List TIdx)} (hr : rankTransformers sort fuel G = .ok gs) {t : TIdx} {id : Int} {a b : Nat}
    (ht : Regulates G t id a b) (hreach : Reached G a ∨ Reached G b) : gs.flatten.count t = 1 := by
  have hw := (wrong_side_reported_partial h hg sort fuel).1 gs hr
  have back : ∀ {t : TIdx} {id : Int} {a b : Nat}, Regulates G t id a b → Supplied G b → Supplied G a := by
    intro t id a b hr hb
    by_contra ha
    exact hw id ⟨t, a, b, hr, hb, ha⟩
  have hsup : ∀ v, Reached G v → Supplied G v := by
    intro v hv
    induction hv with
    | source hs hst => exact ⟨0, .source hs hst⟩
    | join _ hj ih => obtain ⟨k, hk⟩ := ih; exact ⟨k, .join hk hj⟩
    | forth _ hr ih => obtain ⟨k, hk⟩ := ih; exact ⟨k + 1, .cross hk hr⟩
    | back _ hr ih => exact back hr ih
  have ha : Supplied G a := by
    rcases hreach with h | h
    · exact hsup a h
    · exact back ht (hsup b h)
  have hb : Supplied G b := by obtain ⟨k, hk⟩ := ha; exact ⟨k + 1, .cross hk ht⟩
  obtain ⟨ka, hka⟩ := supplied_best ha
  obtain ⟨kb, hkb⟩ := supplied_best hb
  have hle : kb ≤ ka + 1 := hkb.2 _ (.cross hka.1 ht)
  have hrank : ∃ r, HasRank G t r := by
    by_cases e : kb = ka + 1
    · exact ⟨some kb, id, a, b, ka, kb, ht, hka, hkb, Or.inl ⟨e, rfl⟩⟩
    · exact ⟨none, id, a, b, ka, kb, ht, hka, hkb, Or.inr ⟨by omega, rfl⟩⟩
  obtain ⟨r, hrank⟩ := hrank
  obtain ⟨⟨rs, hlen, _, hcl, hall⟩, hnd⟩ := ranks_correct_partial h hg hs hr
  obtain ⟨i, hi, e⟩ := List.mem_iff_getElem.1 (hall t r hrank)
  have hi' : i < gs.length := hlen ▸ hi
  have hmem := ((hcl i r gs[i] (by rw [← e]; exact List.getElem?_eq_getElem hi) (List.getElem?_eq_getElem hi')).2.2 t).2 hrank
  exact List.count_eq_one_of_mem hnd (List.mem_flatten.2 ⟨_, List.getElem_mem hi', hmem⟩)

/-! ## Examples and violations -/

/-- Insertion into a list sorted by rank. -/
def insertByRank (x : Ranked) : List Ranked → List Ranked
  | [] => [x]
  | y :: l => if rankLT y.rank x.rank then y :: insertByRank x l else x :: y :: l

/-- A function that sorts. -/
def insertionSort (l : List Ranked) : List Ranked := l.foldr insertByRank []

theorem insertByRank_perm (x : Ranked) (l : List Ranked) : (insertByRank x l).Perm (x :: l) := by
  induction l with
  | nil => exact List.Perm.refl _
  | cons y l ih =>
    simp only [insertByRank]
    split
    · exact (ih.cons y).trans (List.Perm.swap x y l)
    · exact List.Perm.refl _

theorem insertByRank_sorted (x : Ranked) (l : List Ranked) (h : l.Pairwise (fun x y => ¬ Before y.rank x.rank)) :
    (insertByRank x l).Pairwise (fun x y => ¬ Before y.rank x.rank) := by
  induction l with
  | nil => simp [insertByRank]
  | cons y l ih =>
    have hy := List.pairwise_cons.1 h
    simp only [insertByRank]
    split
    · rename_i hb
      refine List.pairwise_cons.2 ⟨?_, ih hy.2⟩
      intro z hz
      rcases List.mem_cons.1 ((insertByRank_perm x l).mem_iff.1 hz) with rfl | hz
      · intro hh
        rw [rankLT_iff] at hb
        revert hb hh
        cases z.rank <;> cases y.rank <;> simp [Before]
        omega
      · exact hy.1 z hz
    · rename_i hb
      refine List.pairwise_cons.2 ⟨?_, h⟩
      intro z hz
      rw [rankLT_iff] at hb
      rcases List.mem_cons.1 hz with rfl | hz
      · exact hb
      · have := hy.1 z hz
        revert hb this
        cases z.rank <;> cases y.rank <;> cases x.rank <;> simp [Before]
        omega

theorem insertionSort_sorts : Sorts insertionSort := by
  intro l
  unfold insertionSort
  induction l with
  | nil => simp
  | cons x l ih =>
    rw [List.foldr_cons]
    exact ⟨(insertByRank_perm x _).trans (ih.1.cons x), insertByRank_sorted _ _ ih.2⟩

/-- A source at node 0, a regulated transformer 0-1, a line 1-2, a regulated three-winding transformer 2-3-4 with the tap at
node 2 and control of node 3, and another regulated transformer that goes from node 4 to node 1. -/
def exampleGrid : Grid where
  nodes := 5
  trafos := [⟨⟨0, 1, true, true⟩, 10⟩, ⟨⟨4, 1, true, true⟩, 11⟩]
  trafos3 := [⟨12, fun x => if x = 0 then 2 else if x = 1 then 3 else 4, fun _ => true, 0⟩]
  lines := [⟨1, 2, true, true⟩]
  links := []
  genericBranches := []
  asymLines := []
  sources := [⟨0, true⟩]
  regulators := [⟨true, .branch, 10, 1⟩, ⟨true, .branch, 11, 1⟩, ⟨true, .branch3, 12, 1⟩]

theorem exampleGrid_valid : Valid exampleGrid where
  trafos := by decide
  trafos3 := by
    intro t ht x
    simp only [exampleGrid, List.mem_cons, List.not_mem_nil, or_false] at ht
    subst ht
    revert x
    decide
  plain := by
    rintro b (h | h | h | h) <;> simp [exampleGrid] at h
    subst h
    decide
  sources := by decide
  sides := by decide
  objects := by decide

theorem exampleGrid_regular : Regular exampleGrid where
  generic := by simp [exampleGrid]
  asym := by simp [exampleGrid]
  sources := by decide

/-- The first transformer has rank 1, the three-winding transformer rank 2; the second transformer feeds back and is last. -/
example : rankTransformers insertionSort 20 exampleGrid = .ok [[.two 0], [.three 0], [.two 1]] := by decide +kernel

example : HasRank exampleGrid (.two 0) (some 1) := by
  have h := ranks_correct_partial exampleGrid_valid exampleGrid_regular insertionSort_sorts
    (fuel := 20) (gs := [[.two 0], [.three 0], [.two 1]]) (by decide +kernel)
  obtain ⟨⟨rs, hlen, hp, hcl, _⟩, _⟩ := h
  have hr : Regulates exampleGrid (.two 0) 10 0 1 :=
    .toSide (t := ⟨⟨0, 1, true, true⟩, 10⟩) rfl ⟨rfl, rfl⟩ ⟨⟨true, .branch, 10, 1⟩, by simp [exampleGrid], rfl, rfl, rfl, rfl⟩
  have h0 : Best exampleGrid 0 0 :=
    ⟨.source (s := ⟨0, true⟩) (by simp [exampleGrid]) rfl, fun _ _ => Nat.zero_le _⟩
  match rs, hlen with
  | [r0, r1, r2], _ =>
    have := (hcl 0 r0 [.two 0] rfl rfl).2.2 (.two 0)
    have hk := this.1 (by simp)
    obtain ⟨id, a, b, ka, kb, hr', ha, hb, hc⟩ := hk
    obtain ⟨e1, e2⟩ := regulates_joined exampleGrid_valid hr hr'
    have hka : ka = 0 := by
      rcases e1 with rfl | e1
      · exact ha.unique h0
      · exact ha.unique (h0.of_joined e1)
    rcases hc with ⟨h1, rfl⟩ | ⟨h1, rfl⟩
    · subst hka; subst h1; exact this.1 (by simp)
    · exfalso
      have := (List.pairwise_cons.1 hp).1 r1 (by simp)
      simp [Before] at this

/-- A source at node 0, then a generic branch to node 1, then a regulated transformer to node 2. -/
def genericGrid (generic asym : List Branch) (sources : List Source) : Grid where
  nodes := 3
  trafos := [⟨⟨1, 2, true, true⟩, 10⟩]
  trafos3 := []
  lines := []
  links := []
  genericBranches := generic
  asymLines := asym
  sources := sources
  regulators := [⟨true, .branch, 10, 1⟩]

theorem genericGrid_regulates (g a : List Branch) (s : List Source) : Regulates (genericGrid g a s) (.two 0) 10 1 2 :=
  .toSide (t := ⟨⟨1, 2, true, true⟩, 10⟩) rfl ⟨rfl, rfl⟩ ⟨⟨true, .branch, 10, 1⟩, by simp [genericGrid], rfl, rfl, rfl, rfl⟩

/-- In these grids no path to node 2 avoids the transformer. -/
theorem node2_positive (g a : List Branch) (s : List Source)
    (hb : ∀ b, (genericGrid g a s).Plain b → b.fromNode ≠ 2 ∧ b.toNode ≠ 2) (hs : ∀ x ∈ s, x.node ≠ 2) (k : Nat)
    (hp : Path (genericGrid g a s) 2 k) : 1 ≤ k := by
  have hj : ∀ x y, Joined (genericGrid g a s) x y → x ≠ 2 ∧ y ≠ 2 := by
    intro x y h
    induction h with
    | plain h _ => exact hb _ h
    | symm _ ih => exact ih.symm
    | trafo h _ hr =>
      simp only [genericGrid, List.mem_cons, List.not_mem_nil, or_false] at h
      subst h
      exact absurd ⟨⟨true, .branch, 10, 1⟩, by simp [genericGrid], rfl, rfl, rfl, rfl⟩ (hr 1)
    | trafo3 h => simp [genericGrid] at h
  generalize hv : (2 : Nat) = v at hp
  cases hp with
  | source h _ => exact absurd hv.symm (hs _ h)
  | join _ h => exact absurd hv.symm (hj _ _ h).2
  | cross _ _ => omega

/-- Violation of C26: a regulated transformer behind a generic branch is supplied from the source, but gets no rank (and
there is no error), so that it is silently not regulated. -/
theorem behind_generic_branch_unranked :
    HasRank (genericGrid [⟨0, 1, true, true⟩] [] [⟨0, true⟩]) (.two 0) (some 1) ∧
    rankTransformers insertionSort 9 (genericGrid [⟨0, 1, true, true⟩] [] [⟨0, true⟩]) = .ok [] := by
  refine ⟨⟨10, 1, 2, 0, 1, genericGrid_regulates _ _ _, ?_, ?_, Or.inl ⟨rfl, rfl⟩⟩, by decide +kernel⟩
  · refine ⟨.join (.source (s := ⟨0, true⟩) (by simp [genericGrid]) rfl) ?_, fun _ _ => Nat.zero_le _⟩
    exact .plain (b := ⟨0, 1, true, true⟩) (Or.inr (Or.inr (Or.inl (by simp [genericGrid])))) ⟨rfl, rfl⟩
  · refine ⟨.cross (.join (.source (s := ⟨0, true⟩) (by simp [genericGrid]) rfl) ?_) (genericGrid_regulates _ _ _), ?_⟩
    · exact .plain (b := ⟨0, 1, true, true⟩) (Or.inr (Or.inr (Or.inl (by simp [genericGrid])))) ⟨rfl, rfl⟩
    · exact node2_positive _ _ _ (by simp [Grid.Plain, genericGrid]) (by simp)

/-- Violation of C26: the same with an asymmetric line. -/
theorem behind_asym_line_unranked :
    HasRank (genericGrid [] [⟨0, 1, true, true⟩] [⟨0, true⟩]) (.two 0) (some 1) ∧
    rankTransformers insertionSort 9 (genericGrid [] [⟨0, 1, true, true⟩] [⟨0, true⟩]) = .ok [] := by
  refine ⟨⟨10, 1, 2, 0, 1, genericGrid_regulates _ _ _, ?_, ?_, Or.inl ⟨rfl, rfl⟩⟩, by decide +kernel⟩
  · refine ⟨.join (.source (s := ⟨0, true⟩) (by simp [genericGrid]) rfl) ?_, fun _ _ => Nat.zero_le _⟩
    exact .plain (b := ⟨0, 1, true, true⟩) (Or.inr (Or.inr (Or.inr (by simp [genericGrid])))) ⟨rfl, rfl⟩
  · refine ⟨.cross (.join (.source (s := ⟨0, true⟩) (by simp [genericGrid]) rfl) ?_) (genericGrid_regulates _ _ _), ?_⟩
    · exact .plain (b := ⟨0, 1, true, true⟩) (Or.inr (Or.inr (Or.inr (by simp [genericGrid])))) ⟨rfl, rfl⟩
    · exact node2_positive _ _ _ (by simp [Grid.Plain, genericGrid]) (by simp)

/-- Violation of C26: an inactive source at the node of an active one hides it if it comes later in the input. -/
theorem second_source_hides :
    HasRank (genericGrid [] [] [⟨1, true⟩, ⟨1, false⟩]) (.two 0) (some 1) ∧
    rankTransformers insertionSort 9 (genericGrid [] [] [⟨1, true⟩, ⟨1, false⟩]) = .ok [] := by
  refine ⟨⟨10, 1, 2, 0, 1, genericGrid_regulates _ _ _, ?_, ?_, Or.inl ⟨rfl, rfl⟩⟩, by decide +kernel⟩
  · exact ⟨.source (s := ⟨1, true⟩) (by simp [genericGrid]) rfl, fun _ _ => Nat.zero_le _⟩
  · refine ⟨.cross (.source (s := ⟨1, true⟩) (by simp [genericGrid]) rfl) (genericGrid_regulates _ _ _), ?_⟩
    exact node2_positive _ _ _ (by simp [Grid.Plain, genericGrid]) (by simp)

end PGM.TapRank
