import Verif.TapRank.Search
import Mathlib.Data.List.Nodup

/-!
# The graph of the code and the grid of the specification
-/

namespace PGM.TapRank

theorem mem_setInsert (x y : Int × Nat) (l : List (Int × Nat)) : y ∈ setInsert x l ↔ y = x ∨ y ∈ l := by
  induction l with
  | nil => simp [setInsert]
  | cons z l ih =>
    simp only [setInsert]
    split
    · rename_i h; subst h; simp
    · split
      · simp
      · simp only [List.mem_cons, ih]; tauto

theorem mem_retrieve_fold (l : List Regulator) : ∀ (acc : List (Int × Nat) × List (Int × Nat)) (x : Int × Nat),
    (x ∈ (l.foldl retrieveStep acc).1 ↔
      x ∈ acc.1 ∨ ∃ r ∈ l, r.status = true ∧ r.kind = .branch ∧ r.object = x.1 ∧ r.side = x.2) ∧
    (x ∈ (l.foldl retrieveStep acc).2 ↔
      x ∈ acc.2 ∨ ∃ r ∈ l, r.status = true ∧ r.kind = .branch3 ∧ r.object = x.1 ∧ r.side = x.2) := by
  induction l with
  | nil => intro acc x; simp
  | cons r l ih =>
    intro acc x
    rw [List.foldl_cons]
    obtain ⟨h1, h2⟩ := ih (retrieveStep acc r) x
    rw [h1, h2]
    have hx : ∀ a : Int × Nat, x = a ↔ a.1 = x.1 ∧ a.2 = x.2 := by
      intro a; rw [Prod.ext_iff]; constructor <;> rintro ⟨h, h'⟩ <;> exact ⟨h.symm, h'.symm⟩
    have hs : (x ∈ (retrieveStep acc r).1 ↔
          x ∈ acc.1 ∨ (r.status = true ∧ r.kind = .branch ∧ r.object = x.1 ∧ r.side = x.2)) ∧
        (x ∈ (retrieveStep acc r).2 ↔
          x ∈ acc.2 ∨ (r.status = true ∧ r.kind = .branch3 ∧ r.object = x.1 ∧ r.side = x.2)) := by
      unfold retrieveStep
      cases hst : r.status with
      | false => simp
      | true =>
        cases hk : r.kind with
        | branch => simp [mem_setInsert, hx]; tauto
        | branch3 => simp [mem_setInsert, hx]; tauto
    rw [hs.1, hs.2]
    simp only [List.mem_cons, exists_eq_or_imp]
    exact ⟨or_assoc, or_assoc⟩

theorem mem_retrieve (G : Grid) (x : Int × Nat) :
    (x ∈ (retrieve G).1 ↔ G.Controlled .branch x.1 x.2) ∧ (x ∈ (retrieve G).2 ↔ G.Controlled .branch3 x.1 x.2) := by
  have := mem_retrieve_fold G.regulators ([], []) x
  simpa [retrieve, Grid.Controlled] using this

/-- A regulated object has one control side. -/
theorem Valid.side_unique {G : Grid} (h : Valid G) {k k' : Kind} {id : Int} {c c' : Nat} (h1 : G.Controlled k id c)
    (h2 : G.Controlled k' id c') : c = c' := by
  obtain ⟨r, hr, _, _, ho, hs⟩ := h1
  obtain ⟨r', hr', _, _, ho', hs'⟩ := h2
  have : r = r' := List.inj_on_of_nodup_map h.objects hr hr' (by rw [ho, ho'])
  subst this
  rw [← hs, ← hs']

theorem controlSide_iff {G : Grid} {s : List (Int × Nat)} {k : Kind} (h : Valid G)
    (hs : ∀ x : Int × Nat, x ∈ s ↔ G.Controlled k x.1 x.2) (id : Int) :
    (∀ c, controlSide s id = some c ↔ G.Controlled k id c) ∧
    (controlSide s id = none ↔ ∀ c, ¬ G.Controlled k id c) := by
  unfold controlSide
  cases hf : s.find? (fun x => x.1 = id) with
  | none =>
    have h0 : ∀ c, ¬ G.Controlled k id c := by
      intro c hc
      have := List.find?_eq_none.1 hf (id, c) ((hs _).2 hc)
      simp at this
    simp [h0]
  | some x =>
    have h1 : x.1 = id := by simpa using List.find?_some hf
    have h2 : G.Controlled k id x.2 := h1 ▸ (hs x).1 (List.mem_of_find?_eq_some hf)
    constructor
    · intro c
      simp only [Option.map_some, Option.some.injEq]
      constructor
      · rintro rfl; exact h2
      · intro hc; exact h.side_unique h2 hc
    · simp only [Option.map_some, reduceCtorEq, false_iff, not_forall, not_not]
      exact ⟨_, h2⟩

/-- What an edge means. -/
def Means (G : Grid) (e : Edge) : Prop :=
  match e.reg with
  | none => e.weight = 0 ∧ Joined G e.src e.tgt
  | some t => e.weight = 1 ∧ Regulates G t e.id e.src e.tgt

theorem trafoEdges_means {G : Grid} (h : Valid G) {p : Nat} {t : Trafo} (ht : G.trafos[p]? = some t) :
    ∀ e ∈ trafoEdges (retrieve G).1 p t, Means G e := by
  have hc := controlSide_iff h (fun x => (mem_retrieve G x).1) t.id
  have htm : t ∈ G.trafos := List.mem_of_getElem? ht
  intro e he
  unfold trafoEdges at he
  by_cases hst : (!t.fromStatus || !t.toStatus) = true
  · rw [if_pos hst] at he; simp at he
  · rw [if_neg hst] at he
    have hcl : t.Closed := by
      unfold Branch.Closed
      cases h1 : t.fromStatus <;> cases h2 : t.toStatus <;> simp_all
    cases hcs : controlSide (retrieve G).1 t.id with
    | none =>
      rw [hcs] at he
      have hj : Joined G t.fromNode t.toNode := .trafo htm hcl (hc.2.1 hcs)
      simp only [List.mem_cons, List.not_mem_nil, or_false] at he
      rcases he with rfl | rfl
      · exact ⟨rfl, hj⟩
      · exact ⟨rfl, hj.symm⟩
    | some c =>
      rw [hcs] at he
      have hr := (hc.1 c).1 hcs
      simp only [List.mem_cons, List.not_mem_nil, or_false] at he
      subst he
      refine ⟨rfl, ?_⟩
      by_cases e0 : c = 0
      · subst e0
        simp only [if_true]
        exact .fromSide ht hcl hr
      · have : c = 1 := by
          obtain ⟨r, hr', _, hk, _, hside⟩ := hr
          have := (h.sides r hr').1 hk
          omega
        subst this
        simp only [if_neg e0]
        exact .toSide ht hcl hr

theorem pairEdges_means {G : Grid} (h : Valid G) {p : Nat} {t : Trafo3} (ht : G.trafos3[p]? = some t) {x y : Fin 3}
    (hxy : x ≠ y) : ∀ e ∈ pairEdges (retrieve G).2 p t x y, Means G e := by
  have hc := controlSide_iff h (fun x => (mem_retrieve G x).2) t.id
  have htm : t ∈ G.trafos3 := List.mem_of_getElem? ht
  intro e he
  unfold pairEdges at he
  by_cases hst : (!t.status x || !t.status y) = true
  · rw [if_pos hst] at he; simp at he
  · rw [if_neg hst] at he
    have h1 : t.status x = true := by cases h1 : t.status x <;> simp_all
    have h2 : t.status y = true := by cases h2 : t.status y <;> simp_all
    cases hcs : controlSide (retrieve G).2 t.id with
    | none =>
      rw [hcs] at he
      have hj : Joined G (t.node x) (t.node y) := .trafo3 htm hxy h1 h2 (Or.inl (hc.2.1 hcs))
      simp only [List.mem_cons, List.not_mem_nil, or_false] at he
      rcases he with rfl | rfl
      · exact ⟨rfl, hj⟩
      · exact ⟨rfl, hj.symm⟩
    | some c =>
      rw [hcs] at he
      have hr := (hc.1 c).1 hcs
      simp only at he
      by_cases htap : t.tapSide = x ∨ t.tapSide = y
      · rw [if_pos htap] at he
        by_cases hx : t.tapSide = x
        · simp only [hx, if_true] at he
          split at he
          · rename_i hcx
            simp only [List.mem_cons, List.not_mem_nil, or_false] at he
            subst he
            subst hx
            exact ⟨rfl, .tapControlled ht hxy.symm h1 h2 (hcx ▸ hr)⟩
          · rename_i hcx
            simp only [List.mem_cons, List.not_mem_nil, or_false] at he
            subst he
            subst hx
            exact ⟨rfl, .otherControlled ht hxy.symm h1 h2 hr hcx⟩
        · have hy : t.tapSide = y := htap.resolve_left hx
          simp only [hx, if_false] at he
          split at he
          · rename_i hcx
            simp only [List.mem_cons, List.not_mem_nil, or_false] at he
            subst he
            subst hy
            exact ⟨rfl, .tapControlled ht hxy h2 h1 (hcx ▸ hr)⟩
          · rename_i hcx
            simp only [List.mem_cons, List.not_mem_nil, or_false] at he
            subst he
            subst hy
            exact ⟨rfl, .otherControlled ht hxy h2 h1 hr hcx⟩
      · rw [if_neg htap] at he
        push Not at htap
        have hj : Joined G (t.node x) (t.node y) := .trafo3 htm hxy h1 h2 (Or.inr ⟨htap.1.symm, htap.2.symm⟩)
        simp only [List.mem_cons, List.not_mem_nil, or_false] at he
        rcases he with rfl | rfl
        · exact ⟨rfl, hj⟩
        · exact ⟨rfl, hj.symm⟩

theorem branchEdges_means {G : Grid} {b : Branch} (hb : G.Plain b) : ∀ e ∈ branchEdges b, Means G e := by
  intro e he
  unfold branchEdges at he
  by_cases hst : (!b.fromStatus || !b.toStatus) = true
  · rw [if_pos hst] at he; simp at he
  · rw [if_neg hst] at he
    have hcl : b.Closed := by
      unfold Branch.Closed
      cases h1 : b.fromStatus <;> cases h2 : b.toStatus <;> simp_all
    simp only [List.mem_cons, List.not_mem_nil, or_false] at he
    rcases he with rfl | rfl
    · exact ⟨rfl, .plain hb hcl⟩
    · exact ⟨rfl, (Joined.plain hb hcl).symm⟩

/-- Every edge of the graph means what the specification says. -/
theorem edges_mean {G : Grid} (h : Valid G) : ∀ e ∈ graphEdges G, Means G e := by
  intro e he
  simp only [graphEdges, List.mem_append, List.mem_flatMap, Prod.exists, List.mem_zipIdx_iff_getElem?] at he
  rcases he with ((⟨t, p, ht, he⟩ | ⟨t, p, ht, he⟩) | ⟨b, hb, he⟩) | ⟨b, hb, he⟩
  · exact trafoEdges_means h ht e he
  · simp only [trafo3Edges, List.mem_append] at he
    rcases he with (he | he) | he
    · exact pairEdges_means h ht (by decide) e he
    · exact pairEdges_means h ht (by decide) e he
    · exact pairEdges_means h ht (by decide) e he
  · exact branchEdges_means (Or.inl hb) e he
  · exact branchEdges_means (Or.inr (Or.inl hb)) e he

theorem regulates_edge {G : Grid} (h : Valid G) {t : TIdx} {id : Int} {a b : Nat} (hr : Regulates G t id a b) :
    (⟨a, b, some t, 1, id⟩ : Edge) ∈ graphEdges G := by
  have two : ∀ {p : Nat} {u : Trafo}, G.trafos[p]? = some u → ∀ e ∈ trafoEdges (retrieve G).1 p u, e ∈ graphEdges G := by
    intro p u hu e he
    simp only [graphEdges, List.mem_append, List.mem_flatMap, Prod.exists, List.mem_zipIdx_iff_getElem?]
    exact Or.inl (Or.inl (Or.inl ⟨u, p, hu, he⟩))
  have three : ∀ {p : Nat} {u : Trafo3}, G.trafos3[p]? = some u →
      ∀ e ∈ trafo3Edges (retrieve G).2 p u, e ∈ graphEdges G := by
    intro p u hu e he
    simp only [graphEdges, List.mem_append, List.mem_flatMap, Prod.exists, List.mem_zipIdx_iff_getElem?]
    exact Or.inl (Or.inl (Or.inr ⟨u, p, hu, he⟩))
  cases hr with
  | fromSide ht hc hr =>
    rename_i p u
    apply two ht
    have := ((controlSide_iff h (fun x => (mem_retrieve G x).1) u.id).1 0).2 hr
    simp [trafoEdges, this, hc.1, hc.2]
  | toSide ht hc hr =>
    rename_i p u
    apply two ht
    have := ((controlSide_iff h (fun x => (mem_retrieve G x).1) u.id).1 1).2 hr
    simp [trafoEdges, this, hc.1, hc.2]
  | tapControlled ht hx h1 h2 hr =>
    rename_i p u x
    apply three ht
    have hcs := ((controlSide_iff h (fun x => (mem_retrieve G x).2) u.id).1 _).2 hr
    simp only [trafo3Edges, List.mem_append]
    generalize hts : u.tapSide = s at *
    have key : ∀ y z : Fin 3, y ≠ z → ((y = x ∧ z = s) ∨ (y = s ∧ z = x)) →
        (⟨u.node x, u.node s, some (.three p), 1, u.id⟩ : Edge) ∈ pairEdges (retrieve G).2 p u y z := by
      rintro y z hyz (⟨rfl, rfl⟩ | ⟨rfl, rfl⟩)
      · simp [pairEdges, hcs, h1, h2, hts, Ne.symm hyz]
      · simp [pairEdges, hcs, h1, h2, hts]
    match x, s, hx with
    | 0, 0, hx => exact absurd rfl hx
    | 0, 1, _ => exact Or.inl (Or.inl (key 0 1 (by decide) (Or.inl ⟨rfl, rfl⟩)))
    | 0, 2, _ => exact Or.inl (Or.inr (key 0 2 (by decide) (Or.inl ⟨rfl, rfl⟩)))
    | 1, 0, _ => exact Or.inl (Or.inl (key 0 1 (by decide) (Or.inr ⟨rfl, rfl⟩)))
    | 1, 1, hx => exact absurd rfl hx
    | 1, 2, _ => exact Or.inr (key 1 2 (by decide) (Or.inl ⟨rfl, rfl⟩))
    | 2, 0, _ => exact Or.inl (Or.inr (key 0 2 (by decide) (Or.inr ⟨rfl, rfl⟩)))
    | 2, 1, _ => exact Or.inr (key 1 2 (by decide) (Or.inr ⟨rfl, rfl⟩))
    | 2, 2, hx => exact absurd rfl hx
  | otherControlled ht hx h1 h2 hr hc =>
    rename_i p u x c
    apply three ht
    have hcs := ((controlSide_iff h (fun x => (mem_retrieve G x).2) u.id).1 _).2 hr
    simp only [trafo3Edges, List.mem_append]
    generalize hts : u.tapSide = s at *
    have key : ∀ y z : Fin 3, y ≠ z → ((y = x ∧ z = s) ∨ (y = s ∧ z = x)) →
        (⟨u.node s, u.node x, some (.three p), 1, u.id⟩ : Edge) ∈ pairEdges (retrieve G).2 p u y z := by
      rintro y z hyz (⟨rfl, rfl⟩ | ⟨rfl, rfl⟩)
      · simp [pairEdges, hcs, h1, h2, hts, Ne.symm hyz, hc]
      · simp [pairEdges, hcs, h1, h2, hts, hc]
    match x, s, hx with
    | 0, 0, hx => exact absurd rfl hx
    | 0, 1, _ => exact Or.inl (Or.inl (key 0 1 (by decide) (Or.inl ⟨rfl, rfl⟩)))
    | 0, 2, _ => exact Or.inl (Or.inr (key 0 2 (by decide) (Or.inl ⟨rfl, rfl⟩)))
    | 1, 0, _ => exact Or.inl (Or.inl (key 0 1 (by decide) (Or.inr ⟨rfl, rfl⟩)))
    | 1, 1, hx => exact absurd rfl hx
    | 1, 2, _ => exact Or.inr (key 1 2 (by decide) (Or.inl ⟨rfl, rfl⟩))
    | 2, 0, _ => exact Or.inl (Or.inr (key 0 2 (by decide) (Or.inr ⟨rfl, rfl⟩)))
    | 2, 1, _ => exact Or.inr (key 1 2 (by decide) (Or.inr ⟨rfl, rfl⟩))
    | 2, 2, hx => exact absurd rfl hx

theorem joined_edges {G : Grid} (h : Valid G) (hg : Regular G) {a b : Nat} (hj : Joined G a b) :
    freeEdge a b ∈ graphEdges G ∧ freeEdge b a ∈ graphEdges G := by
  have gen : ∀ l : List Edge, (∀ e ∈ l, e ∈ graphEdges G) → ∀ a b, freeEdge a b ∈ l ∧ freeEdge b a ∈ l →
      freeEdge a b ∈ graphEdges G ∧ freeEdge b a ∈ graphEdges G :=
    fun l hl a b hab => ⟨hl _ hab.1, hl _ hab.2⟩
  induction hj with
  | symm _ ih => exact ⟨ih.2, ih.1⟩
  | @plain b hb hc =>
    apply gen (branchEdges b)
    · intro e he
      simp only [graphEdges, List.mem_append, List.mem_flatMap]
      rcases hb with hb | hb | hb | hb
      · exact Or.inl (Or.inr ⟨b, hb, he⟩)
      · exact Or.inr ⟨b, hb, he⟩
      · exact absurd hc (hg.generic b hb)
      · exact absurd hc (hg.asym b hb)
    · simp [branchEdges, hc.1, hc.2]
  | @trafo t ht hc hr =>
    obtain ⟨p, hp⟩ := List.mem_iff_getElem?.1 ht
    apply gen (trafoEdges (retrieve G).1 p t)
    · intro e he
      simp only [graphEdges, List.mem_append, List.mem_flatMap, Prod.exists, List.mem_zipIdx_iff_getElem?]
      exact Or.inl (Or.inl (Or.inl ⟨t, p, hp, he⟩))
    · have hcs := ((controlSide_iff h (fun x => (mem_retrieve G x).1) t.id).2).2 hr
      simp [trafoEdges, hcs, hc.1, hc.2]
  | @trafo3 t x y ht hxy h1 h2 hr =>
    obtain ⟨p, hp⟩ := List.mem_iff_getElem?.1 ht
    have hcases : ∀ y z : Fin 3, t.status y = true → t.status z = true →
        ((∀ c, ¬ G.Controlled .branch3 t.id c) ∨ (y ≠ t.tapSide ∧ z ≠ t.tapSide)) →
        freeEdge (t.node y) (t.node z) ∈ pairEdges (retrieve G).2 p t y z ∧
        freeEdge (t.node z) (t.node y) ∈ pairEdges (retrieve G).2 p t y z := by
      intro y z hy hz hyz
      have hcs := controlSide_iff h (fun x => (mem_retrieve G x).2) t.id
      rcases hyz with hyz | ⟨hy', hz'⟩
      · have := hcs.2.2 hyz
        simp [pairEdges, this, hy, hz]
      · cases hc : controlSide (retrieve G).2 t.id with
        | none => simp [pairEdges, hc, hy, hz]
        | some c => simp [pairEdges, hc, hy, hz, Ne.symm hy', Ne.symm hz']
    have hsub : ∀ e ∈ trafo3Edges (retrieve G).2 p t, e ∈ graphEdges G := by
      intro e he
      simp only [graphEdges, List.mem_append, List.mem_flatMap, Prod.exists, List.mem_zipIdx_iff_getElem?]
      exact Or.inl (Or.inl (Or.inr ⟨t, p, hp, he⟩))
    have hr' : (∀ c, ¬ G.Controlled .branch3 t.id c) ∨ (y ≠ t.tapSide ∧ x ≠ t.tapSide) := by tauto
    have k1 := hcases x y h1 h2 hr
    have k2 := hcases y x h2 h1 hr'
    apply gen _ hsub
    simp only [trafo3Edges, List.mem_append]
    match x, y, hxy with
    | 0, 0, hxy => exact absurd rfl hxy
    | 0, 1, _ => exact ⟨Or.inl (Or.inl k1.1), Or.inl (Or.inl k1.2)⟩
    | 0, 2, _ => exact ⟨Or.inl (Or.inr k1.1), Or.inl (Or.inr k1.2)⟩
    | 1, 0, _ => exact ⟨Or.inl (Or.inl k2.2), Or.inl (Or.inl k2.1)⟩
    | 1, 1, hxy => exact absurd rfl hxy
    | 1, 2, _ => exact ⟨Or.inr k1.1, Or.inr k1.2⟩
    | 2, 0, _ => exact ⟨Or.inl (Or.inr k2.2), Or.inl (Or.inr k2.1)⟩
    | 2, 1, _ => exact ⟨Or.inr k2.2, Or.inr k2.1⟩
    | 2, 2, hxy => exact absurd rfl hxy

theorem joined_range {G : Grid} (h : Valid G) {a b : Nat} (hj : Joined G a b) : a < G.nodes ∧ b < G.nodes := by
  induction hj with
  | plain hb _ => exact h.plain _ hb
  | trafo ht _ _ => exact h.trafos _ ht
  | trafo3 ht _ _ _ _ => exact ⟨h.trafos3 _ ht _, h.trafos3 _ ht _⟩
  | symm _ ih => exact ih.symm

theorem regulates_range {G : Grid} (h : Valid G) {t : TIdx} {id : Int} {a b : Nat} (hr : Regulates G t id a b) :
    a < G.nodes ∧ b < G.nodes := by
  cases hr with
  | fromSide ht _ _ => exact (h.trafos _ (List.mem_of_getElem? ht)).symm
  | toSide ht _ _ => exact h.trafos _ (List.mem_of_getElem? ht)
  | tapControlled ht _ _ _ _ => exact ⟨h.trafos3 _ (List.mem_of_getElem? ht) _, h.trafos3 _ (List.mem_of_getElem? ht) _⟩
  | otherControlled ht _ _ _ _ _ =>
    exact ⟨h.trafos3 _ (List.mem_of_getElem? ht) _, h.trafos3 _ (List.mem_of_getElem? ht) _⟩

theorem edges_range {G : Grid} (h : Valid G) : ∀ e ∈ graphEdges G, e.src < G.nodes ∧ e.tgt < G.nodes := by
  intro e he
  have := edges_mean h e he
  unfold Means at this
  split at this
  · exact joined_range h this.2
  · exact regulates_range h this.2

/-! ## Sources -/

theorem isSource_fold (l : List Source) : ∀ (m : Nat → Bool) (v : Nat),
    (l.foldl (fun m s => Function.update m s.node s.status) m) v = true →
      m v = true ∨ ∃ s ∈ l, s.node = v ∧ s.status = true := by
  induction l with
  | nil => intro m v h; exact Or.inl h
  | cons s l ih =>
    intro m v h
    rw [List.foldl_cons] at h
    rcases ih _ v h with h1 | ⟨s', hs', h1⟩
    · rw [Function.update_apply] at h1
      split at h1
      · rename_i hv; right; exact ⟨s, List.mem_cons_self, hv.symm, h1⟩
      · left; exact h1
    · right; exact ⟨s', List.mem_cons_of_mem _ hs', h1⟩

theorem isSource_fold_on (l : List Source) (v : Nat) : ∀ (m : Nat → Bool),
    (∀ s ∈ l, s.node = v → s.status = true) → (m v = true ∨ ∃ s ∈ l, s.node = v) →
    (l.foldl (fun m s => Function.update m s.node s.status) m) v = true := by
  induction l with
  | nil => intro m _ h; simpa using h
  | cons s l ih =>
    intro m hl h
    rw [List.foldl_cons]
    apply ih _ (fun s' hs' => hl s' (List.mem_cons_of_mem _ hs'))
    by_cases hv : s.node = v
    · left
      rw [Function.update_apply, if_pos hv.symm]
      exact hl s List.mem_cons_self hv
    · rcases h with h | ⟨s', hs', h⟩
      · left
        rw [Function.update_apply, if_neg (Ne.symm hv)]
        exact h
      · rcases List.mem_cons.1 hs' with rfl | hs'
        · exact absurd h hv
        · right; exact ⟨s', hs', h⟩

theorem isSource_iff {G : Grid} (hg : Regular G) (v : Nat) :
    isSource G v = true ↔ ∃ s ∈ G.sources, s.node = v ∧ s.status = true := by
  constructor
  · intro h
    rcases isSource_fold _ _ _ h with h | h
    · simp at h
    · exact h
  · rintro ⟨s, hs, hv, hst⟩
    apply isSource_fold_on
    · intro s' hs' hv'
      rw [hg.sources s' hs' s hs (hv'.trans hv.symm)]
      exact hst
    · exact Or.inr ⟨s, hs, hv⟩

/-! ## Paths -/

theorem path_iff {G : Grid} (h : Valid G) (hg : Regular G) (v k : Nat) :
    WPath (graphEdges G) (fun w => w < G.nodes ∧ isSource G w = true) v k ↔ Path G v k := by
  constructor
  · intro hp
    induction hp with
    | start hs =>
      obtain ⟨s, hs', hv, hst⟩ := (isSource_iff hg _).1 hs.2
      rw [← hv]
      exact .source hs' hst
    | @step e k _ he ih =>
      have hm := edges_mean h e he
      unfold Means at hm
      split at hm
      · rw [hm.1]; exact .join ih hm.2
      · rw [hm.1]; exact .cross ih hm.2
  · intro hp
    induction hp with
    | @source s hs hst => exact .start ⟨h.sources s hs, (isSource_iff hg _).2 ⟨s, hs, rfl, hst⟩⟩
    | @join a b k _ hj ih => exact WPath.step (e := freeEdge a b) ih (joined_edges h hg hj).1
    | @cross a b k t id _ hr ih => exact WPath.step (e := ⟨a, b, some t, 1, id⟩) ih (regulates_edge h hr)

/-- The distances of the code are the numbers of regulated transformers on the best paths. -/
theorem distances_best {G : Grid} (h : Valid G) (hg : Regular G) {fuel : Nat} {d : Dist}
    (hd : distances (isSource G) G.nodes (graphEdges G) fuel = some d) :
    (∀ v k, d v = some k ↔ Best G v k) ∧ (∀ v, d v = none ↔ ¬ Supplied G v) := by
  have := distances_correct hd
  simp only [path_iff h hg] at this
  refine ⟨this.1, fun v => ?_⟩
  rw [this.2 v]
  simp [Supplied]

end PGM.TapRank
