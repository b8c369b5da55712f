import Verif.Topology.Reorder
import Verif.Topology.Spec

/-!
# The loop over the sources
-/

namespace PGM.Topology

variable {A : Type} [AddGroup A]

/-! ## The graph -/

theorem mem_edges (G : Grid A) (e : Edge A) : e ∈ edges G ↔
    (∃ b ∈ G.branches, b.iConn = true ∧ b.jConn = true ∧ b.i ≠ b.j ∧ (e = ⟨b.i, b.j, -b.shift⟩ ∨ e = ⟨b.j, b.i, b.shift⟩)) ∨
    (∃ b k, ∃ m : Fin 3, G.branch3s[k]? = some b ∧ b.conn m = true ∧
      (e = ⟨b.node m, G.nNode + k, -b.shift m⟩ ∨ e = ⟨G.nNode + k, b.node m, b.shift m⟩)) := by
  have hside : ∀ (b : Branch3 A) (j : Nat) (m : Fin 3), e ∈ sideEdges b j m ↔
      b.conn m = true ∧ (e = ⟨b.node m, j, -b.shift m⟩ ∨ e = ⟨j, b.node m, b.shift m⟩) := by
    intro b j m
    unfold sideEdges
    cases hm : b.conn m <;> simp
  have h3 : ∀ (b : Branch3 A) (j : Nat), e ∈ branch3Edges b j ↔
      ∃ m : Fin 3, b.conn m = true ∧ (e = ⟨b.node m, j, -b.shift m⟩ ∨ e = ⟨j, b.node m, b.shift m⟩) := by
    intro b j
    unfold branch3Edges
    rw [List.mem_append, List.mem_append, hside, hside, hside]
    constructor
    · rintro ((h | h) | h)
      · exact ⟨0, h⟩
      · exact ⟨1, h⟩
      · exact ⟨2, h⟩
    · rintro ⟨m, h⟩
      match m, h with
      | 0, h => exact Or.inl (Or.inl h)
      | 1, h => exact Or.inl (Or.inr h)
      | 2, h => exact Or.inr h
  unfold edges
  rw [List.mem_append, List.mem_flatMap, List.mem_flatMap]
  constructor
  · rintro (⟨b, hb, he⟩ | ⟨b, hb, he⟩)
    · left
      unfold branchEdges at he
      split_ifs at he with hc
      · simp only [Bool.and_eq_true, bne_iff_ne] at hc
        simp only [List.mem_cons, List.not_mem_nil, or_false] at he
        exact ⟨b, hb, hc.1.1, hc.1.2, hc.2, he⟩
      · simp at he
    · right
      obtain ⟨m, hm⟩ := (h3 _ _).mp he
      obtain ⟨b, k⟩ := b
      rw [List.mk_mem_zipIdx_iff_getElem?] at hb
      exact ⟨b, k, m, hb, hm⟩
  · rintro (⟨b, hb, h1, h2, h4, he⟩ | ⟨b, k, m, hb, hm⟩)
    · left
      refine ⟨b, hb, ?_⟩
      unfold branchEdges
      rw [if_pos (by simp [h1, h2, h4])]
      simpa using he
    · right
      exact ⟨(b, k), List.mk_mem_zipIdx_iff_getElem?.mpr hb, (h3 _ _).mpr ⟨m, hm⟩⟩

theorem edges_undirected {G : Grid A} (h : G.Valid) : Undirected (edges G) G.nTotal := by
  refine ⟨⟨fun e he => ?_, fun e he => ?_⟩, fun e he => ?_⟩
  · rcases (mem_edges G e).mp he with ⟨b, hb, h1, h2, h3, h4⟩ | ⟨b, k, m, hb, h1, h2⟩
    · rcases h4 with rfl | rfl
      · exact ⟨⟨b.j, b.i, b.shift⟩, (mem_edges G _).mpr (Or.inl ⟨b, hb, h1, h2, h3, Or.inr rfl⟩), rfl, rfl⟩
      · exact ⟨⟨b.i, b.j, -b.shift⟩, (mem_edges G _).mpr (Or.inl ⟨b, hb, h1, h2, h3, Or.inl rfl⟩), rfl, rfl⟩
    · rcases h2 with rfl | rfl
      · exact ⟨⟨G.nNode + k, b.node m, b.shift m⟩, (mem_edges G _).mpr (Or.inr ⟨b, k, m, hb, h1, Or.inr rfl⟩), rfl, rfl⟩
      · exact ⟨⟨b.node m, G.nNode + k, -b.shift m⟩, (mem_edges G _).mpr (Or.inr ⟨b, k, m, hb, h1, Or.inl rfl⟩), rfl, rfl⟩
  · unfold Grid.nTotal
    rcases (mem_edges G e).mp he with ⟨b, hb, h1, h2, h3, h4⟩ | ⟨b, k, m, hb, h1, h2⟩
    · have := h.branch b hb
      rcases h4 with rfl | rfl <;> simp only <;> omega
    · have := h.branch3 b (List.mem_of_getElem? hb) m
      have hk : k < G.branch3s.length := by
        by_contra hc
        rw [List.getElem?_eq_none (by omega)] at hb
        cases hb
      rcases h2 with rfl | rfl <;> simp only <;> omega
  · rcases (mem_edges G e).mp he with ⟨b, hb, h1, h2, h3, h4⟩ | ⟨b, k, m, hb, h1, h2⟩
    · rcases h4 with rfl | rfl
      · exact h3
      · exact Ne.symm h3
    · have := h.branch3 b (List.mem_of_getElem? hb) m
      rcases h2 with rfl | rfl <;> simp only <;> omega

theorem edge_link {G : Grid A} {e : Edge A} (he : e ∈ edges G) : Link G e.src e.tgt e.shift := by
  rcases (mem_edges G e).mp he with ⟨b, hb, h1, h2, h3, rfl | rfl⟩ | ⟨b, k, m, hb, h1, rfl | rfl⟩
  · exact Link.forward hb h1 h2
  · exact Link.backward hb h1 h2
  · exact Link.inward hb h1
  · exact Link.outward hb h1

theorem step_iff_linked {G : Grid A} (h : G.Valid) (x y : Nat) : Step (edges G) x y ↔ x ≠ y ∧ Linked G x y := by
  constructor
  · rintro ⟨e, he, rfl, rfl⟩
    exact ⟨(edges_undirected h).loopless e he, _, edge_link he⟩
  · rintro ⟨hne, a, hl⟩
    cases hl with
    | forward hb h1 h2 => exact ⟨_, (mem_edges G _).mpr (Or.inl ⟨_, hb, h1, h2, hne, Or.inl rfl⟩), rfl, rfl⟩
    | backward hb h1 h2 => exact ⟨_, (mem_edges G _).mpr (Or.inl ⟨_, hb, h1, h2, Ne.symm hne, Or.inr rfl⟩), rfl, rfl⟩
    | inward hb h1 => exact ⟨_, (mem_edges G _).mpr (Or.inr ⟨_, _, _, hb, h1, Or.inl rfl⟩), rfl, rfl⟩
    | outward hb h1 => exact ⟨_, (mem_edges G _).mpr (Or.inr ⟨_, _, _, hb, h1, Or.inr rfl⟩), rfl, rfl⟩

theorem reach_iff {G : Grid A} (h : G.Valid) (x y : Nat) : Reach G x y ↔ Relation.ReflTransGen (Step (edges G)) x y := by
  constructor
  · intro hr
    induction hr with
    | refl => exact Relation.ReflTransGen.refl
    | @tail b c _ hl ih =>
      by_cases e : b = c
      · rw [← e]; exact ih
      · exact ih.tail ((step_iff_linked h _ _).mpr ⟨e, hl⟩)
  · intro hr
    induction hr with
    | refl => exact Relation.ReflTransGen.refl
    | tail _ hs ih => exact Relation.ReflTransGen.tail ih ((step_iff_linked h _ _).mp hs).2

/-! ## Cycles -/

/-- Two adjacent vertices with another way between them. -/
def Cyc (E : List (Edge A)) (x y : Nat) : Prop :=
  Step E x y ∧ Relation.ReflTransGen (fun a b => Step E a b ∧ ¬(a = x ∧ b = y) ∧ ¬(a = y ∧ b = x)) x y

theorem cyc_iff {G : Grid A} (h : G.Valid) (x y : Nat) : OnCycle G x y ↔ Cyc (edges G) x y := by
  unfold OnCycle Cyc
  rw [step_iff_linked h]
  constructor
  · rintro ⟨h1, h2, h3⟩
    refine ⟨⟨h1, h2⟩, ?_⟩
    generalize hz : y = z at h3
    have : ∀ z, Relation.ReflTransGen (fun a b => Linked G a b ∧ ¬(a = x ∧ b = y) ∧ ¬(a = y ∧ b = x)) x z →
        Relation.ReflTransGen (fun a b => Step (edges G) a b ∧ ¬(a = x ∧ b = y) ∧ ¬(a = y ∧ b = x)) x z := by
      intro z hz
      induction hz with
      | refl => exact Relation.ReflTransGen.refl
      | @tail b c _ hl ih =>
        by_cases e : b = c
        · rw [← e]; exact ih
        · exact ih.tail ⟨(step_iff_linked h _ _).mpr ⟨e, hl.1⟩, hl.2⟩
    subst hz
    exact this _ h3
  · rintro ⟨⟨h1, h2⟩, h3⟩
    refine ⟨h1, h2, ?_⟩
    clear h1 h2
    generalize hz : y = z at h3
    have : ∀ z, Relation.ReflTransGen (fun a b => Step (edges G) a b ∧ ¬(a = x ∧ b = y) ∧ ¬(a = y ∧ b = x)) x z →
        Relation.ReflTransGen (fun a b => Linked G a b ∧ ¬(a = x ∧ b = y) ∧ ¬(a = y ∧ b = x)) x z := by
      intro z hz
      induction hz with
      | refl => exact Relation.ReflTransGen.refl
      | tail _ hl ih => exact ih.tail ⟨((step_iff_linked h _ _).mp hl.1).2, hl.2⟩
    subst hz
    exact this _ h3

theorem back_cyc {E : List (Edge A)} {n root : Nat} {D : List Nat} {pred : Nat → Nat} {back : List (Nat × Nat)} (hE : Undirected E n)
    (h : Tree E root D pred back) : back ≠ [] ↔ ∃ x ∈ D, ∃ y, Cyc E x y := by
  constructor
  · intro hb
    obtain ⟨b, hbm⟩ := List.exists_mem_of_ne_nil back hb
    obtain ⟨s1, s2, s3, s4, s5⟩ := h.backEdges b hbm
    obtain ⟨hne, hsr⟩ := h.back_root hE hbm
    refine ⟨b.1, s1, b.2, s5, ?_⟩
    have hlt : D.idxOf b.2 < D.idxOf b.1 := by
      have h1 := h.up_le s1 s4
      rcases Nat.lt_or_eq_of_le h1 with h2 | h2
      · exact h2
      · exact absurd (idxOf_inj s2 h2).symm hne
    have main : ∀ w, w ∈ D → D.idxOf b.2 < D.idxOf w → Up pred w b.2 →
        Relation.ReflTransGen (fun a c => Step E a c ∧ ¬(a = b.1 ∧ c = b.2) ∧ ¬(a = b.2 ∧ c = b.1)) w b.2 := by
      intro w hw hlt hu
      generalize hv : b.2 = v at hu
      induction hu with
      | refl => rw [hv] at hlt
      | @step w v hu ih =>
        subst hv
        have hwr : w ≠ root := by
          rintro rfl
          rw [h.root_idx] at hlt
          exact absurd hlt (Nat.not_lt_zero _)
        have hst : Step E w (pred w) := (h.tree w hw hwr).symm hE.toBidirected
        have hok : ¬(w = b.1 ∧ pred w = b.2) ∧ ¬(w = b.2 ∧ pred w = b.1) := by
          refine ⟨?_, ?_⟩
          · rintro ⟨rfl, e⟩; exact s3 e
          · rintro ⟨rfl, _⟩; omega
        refine Relation.ReflTransGen.head ⟨hst, hok⟩ ?_
        by_cases e : pred w = b.2
        · rw [e]
        · apply ih (h.pred_mem hw) _ rfl
          have h1 := h.up_le (h.pred_mem hw) hu
          rcases Nat.lt_or_eq_of_le h1 with h2 | h2
          · exact h2
          · exact absurd (idxOf_inj s2 h2).symm e
    exact main b.1 s1 hlt s4
  · rintro ⟨x, hx, y, hs, hd⟩ rfl
    have hy := h.stepIn x y hx hs
    -- the vertices below a vertex are left only through its predecessor
    have leave : ∀ z ∈ D, z ≠ root → ∀ a b, a ∈ D → Step E a b → ¬(a = z ∧ b = pred z) → Up pred a z → Up pred b z := by
      intro z hz hzr a b ha hab hne hu
      have hb := h.stepIn a b ha hab
      obtain ⟨_, hk⟩ := (h.step_iff hE ha hb).mp hab
      rcases hk with k | k | k | k
      · exact Up.step (by rw [k]; exact hu)
      · cases hu with
        | refl => exact absurd ⟨rfl, k.symm⟩ hne
        | step hu => rw [← k]; exact hu
      · simp at k
      · simp at k
    obtain ⟨hxy, hk⟩ := (h.step_iff hE hx hy).mp hs
    rcases hk with k | k | k | k
    · -- `x` is above `y`: go backwards
      have hyr : y ≠ root := by rw [← h.pred_ne hy, k]; exact hxy
      have : ∀ w, Relation.ReflTransGen (fun a b => Step E a b ∧ ¬(a = x ∧ b = y) ∧ ¬(a = y ∧ b = x)) x w → w ∈ D ∧ ¬Up pred w y := by
        intro w hw
        induction hw with
        | refl =>
          refine ⟨hx, fun hu => ?_⟩
          have h1 := h.up_le hx hu
          have h2 := (h.idx_pred hy hyr).2
          rw [k] at h2
          omega
        | @tail a b _ hab ih =>
          have hb := h.stepIn a b ih.1 hab.1
          refine ⟨hb, fun hu => ih.2 ?_⟩
          refine leave y hy hyr b a hb (hab.1.symm hE.toBidirected) ?_ hu
          rintro ⟨rfl, rfl⟩
          exact hab.2.1 ⟨k, rfl⟩
      exact (this y hd).2 (Up.refl _)
    · have hxr : x ≠ root := by rw [← h.pred_ne hx, k]; exact Ne.symm hxy
      have : ∀ w, Relation.ReflTransGen (fun a b => Step E a b ∧ ¬(a = x ∧ b = y) ∧ ¬(a = y ∧ b = x)) x w → w ∈ D ∧ Up pred w x := by
        intro w hw
        induction hw with
        | refl => exact ⟨hx, Up.refl _⟩
        | @tail a b _ hab ih =>
          refine ⟨h.stepIn a b ih.1 hab.1, leave x hx hxr a b ih.1 hab.1 ?_ ih.2⟩
          rintro ⟨rfl, rfl⟩
          exact hab.2.1 ⟨rfl, k⟩
      have h1 := h.up_le hy (this y hd).2
      have h2 := (h.idx_pred hx hxr).2
      rw [k] at h2
      omega
    · simp at k
    · simp at k

/-! ## Positions -/

theorem assignPos_eq (order : List Nat) (hn : order.Nodup) (pos : Nat → Option Nat) (x : Nat) :
    assignPos order pos x = if x ∈ order then some (order.idxOf x) else pos x := by
  unfold assignPos
  have main : ∀ (l : List Nat) (k : Nat) (m : Nat → Option Nat), l.Nodup →
      ((l.zipIdx k).foldl (fun (p : Nat → Option Nat) x => Function.update p x.1 (some x.2)) m) x =
        if x ∈ l then some (k + l.idxOf x) else m x := by
    intro l
    induction l with
    | nil => intro k m _; simp
    | cons a l ih =>
      intro k m hn
      rw [List.nodup_cons] at hn
      rw [List.zipIdx_cons, List.foldl_cons, ih (k + 1) _ hn.2]
      by_cases hxa : x = a
      · subst hxa
        rw [if_neg hn.1, if_pos (by simp), Function.update_self, List.idxOf_cons_self]
        rfl
      · rw [List.idxOf_cons_ne _ (Ne.symm hxa), Function.update_of_ne hxa]
        by_cases hx : x ∈ l
        · rw [if_pos hx, if_pos (by simp [hx])]
          congr 1; omega
        · rw [if_neg hx, if_neg (by simp [hx, hxa])]
  rw [main order 0 pos hn]
  simp

/-! ## The loop -/

/-- A walk in the graph with the sum of the shifts. -/
inductive EWay (E : List (Edge A)) : Nat → Nat → A → Prop
  | refl (x : Nat) : EWay E x x 0
  | step {x : Nat} {a : A} {e : Edge A} : EWay E x e.src a → e ∈ E → EWay E x e.tgt (a + e.shift)

theorem ordered_self {E : List (Edge A)} {D order : List Nat} {fills : List (Nat × Nat)} (h : Ordered E D order fills) :
    Ordered E order order fills where
  nodup := h.nodup
  mem _ := Iff.rfl
  fill f hf := by
    obtain ⟨x, y, hx, hy, h1⟩ := h.fill f hf
    exact ⟨x, y, (h.mem x).mpr hx, (h.mem y).mpr hy, h1⟩
  once := h.once
  closed z x y hz hx hy := h.closed z x y ((h.mem z).mp hz) ((h.mem x).mp hx) ((h.mem y).mp hy)

/-- What an island is. -/
structure IslandOk (E : List (Edge A)) (s : State A) (g : Nat) (I : Island A) (root : Nat) (order : List Nat) : Prop where
  rootIn : root ∈ order
  mem : ∀ x, x ∈ order ↔ s.visit.group x = some g
  reach : ∀ x, x ∈ order ↔ Relation.ReflTransGen (Step E) root x
  pos : ∀ x ∈ order, s.pos x = some (order.idxOf x)
  ordered : Ordered E order order I.fillIn
  slack : I.slack = order.idxOf root
  shift : I.phaseShift = order.map s.visit.shift
  walk : ∀ x ∈ order, EWay E root x (s.visit.shift x)
  radial : I.radial = true ↔ ¬∃ x ∈ order, ∃ y, Cyc E x y
  higher : I.radial = true → ∀ x ∈ order, order.idxOf x + 1 < order.length →
    ∃ p, Step E x p ∧ order.idxOf x < order.idxOf p ∧ ∀ y, Step E x y → order.idxOf x < order.idxOf y → y = p

/-- What holds when the sources in `done` have been handled. -/
structure LoopInv (E : List (Edge A)) (done : List (Nat × Bool)) (s : State A) : Prop where
  between : Between E s.visit
  black : ∀ v, s.visit.colour v = .black ↔ s.visit.group v ≠ none
  fresh : ∀ v, s.visit.group v = none → s.pos v = none ∧ s.inCycle v = false ∧ s.visit.shift v = 0
  reached : ∀ v, s.visit.group v ≠ none ↔ ∃ a ∈ done, a.2 = true ∧ Relation.ReflTransGen (Step E) a.1 v
  range : ∀ v g, s.visit.group v = some g → g < s.islands.length
  islands : ∀ (g : Nat) I, s.islands[g]? = some I → ∃ root order, (root, true) ∈ done ∧ IslandOk E s g I root order

theorem visited_way {E : List (Edge A)} {g root : Nat} {st₀ st : Visit A} (h : Visited E g root st₀ st) (h0 : st₀.shift root = 0) :
    ∀ x ∈ st.dfsNode, EWay E root x (st.shift x) := by
  have ht := h.toTree
  have main : ∀ k x, x ∈ st.dfsNode → st.dfsNode.idxOf x ≤ k → EWay E root x (st.shift x) := by
    intro k
    induction k with
    | zero =>
      intro x hx hk
      rw [ht.idx_root hx (by omega), h.rootShift, h0]
      exact EWay.refl _
    | succ k ih =>
      intro x hx hk
      by_cases hr : x = root
      · rw [hr, h.rootShift, h0]
        exact EWay.refl _
      · obtain ⟨e, he, h1, h2, h3⟩ := h.tree x hx hr
        obtain ⟨p1, p2⟩ := ht.idx_pred hx hr
        have := ih _ p1 (by omega)
        rw [h3]
        rw [← h1] at this
        have hw := EWay.step this he
        rw [h2, h1] at hw
        exact hw
  intro x hx
  exact main _ x hx (Nat.le_refl _)

theorem source_ok {E : List (Edge A)} {n : Nat} (hE : Undirected E n) {done : List (Nat × Bool)} {s : State A} (h : LoopInv E done s)
    (src : Nat × Bool) (hr : src.1 < n) : ∃ s', sourceStep E n s src = some s' ∧ LoopInv E (done ++ [src]) s' := by
  have mono : ∀ v, (∃ a ∈ done, a.2 = true ∧ Relation.ReflTransGen (Step E) a.1 v) →
      ∃ a ∈ done ++ [src], a.2 = true ∧ Relation.ReflTransGen (Step E) a.1 v := by
    rintro v ⟨a, ha, h1⟩
    exact ⟨a, by simp [ha], h1⟩
  have keep : (src.2 = true → s.visit.group src.1 ≠ none) → LoopInv E (done ++ [src]) s := by
    intro hk
    refine ⟨h.between, h.black, h.fresh, fun v => ?_, h.range, fun g I hI => ?_⟩
    · rw [h.reached]
      constructor
      · exact mono v
      · rintro ⟨a, ha, h1, h2⟩
        rcases List.mem_append.mp ha with ha | ha
        · exact ⟨a, ha, h1, h2⟩
        · rw [List.mem_singleton] at ha
          rw [ha] at h1 h2
          obtain ⟨a', ha', h3, h4⟩ := (h.reached _).mp (hk h1)
          exact ⟨a', ha', h3, h4.trans h2⟩
    · obtain ⟨root, order, h1, h2⟩ := h.islands g I hI
      exact ⟨root, order, by simp [h1], h2⟩
  unfold sourceStep
  by_cases h1 : src.2 = false
  · rw [if_pos h1]
    exact ⟨s, rfl, keep (by rw [h1]; simp)⟩
  · rw [if_neg h1]
    have h1 : src.2 = true := by simpa using h1
    by_cases h2 : s.visit.group src.1 = none
    · rw [if_neg (by simpa using h2)]
      have hw : s.visit.colour src.1 = .white := by
        cases hc : s.visit.colour src.1 with
        | white => rfl
        | gray => exact absurd hc (h.between.noGray _)
        | black => exact absurd h2 ((h.black _).mp hc)
      obtain ⟨v, e1, hv, hb⟩ := visit_ok (g := s.islands.length) hE.toBidirected h.between hr hw
      have ht := hv.toTree
      have hnew : ∀ x ∈ v.dfsNode, s.visit.group x = none := by
        intro x hx
        by_contra hne
        have h3 := (h.reached x).mp hne
        obtain ⟨a, ha, ha1, ha2⟩ := h3
        have hback : Relation.ReflTransGen (Step E) x src.1 := by
          have := (hv.mem x).mp hx
          clear ha2 hx hne
          induction this with
          | refl => exact Relation.ReflTransGen.refl
          | tail _ hs ih => exact Relation.ReflTransGen.head (hs.symm hE.toBidirected) ih
        exact (h.reached _).mpr ⟨a, ha, ha1, ha2.trans hback⟩ h2
      have hord : ∃ order fills inCycle, islandOrder v s.inCycle = some (order, fills, inCycle) ∧ Ordered E v.dfsNode order fills ∧
          ∀ x, x ∉ v.dfsNode → inCycle x = s.inCycle x := by
        unfold islandOrder
        by_cases hbk : v.back = []
        · rw [if_pos hbk]
          rw [hbk] at ht
          exact ⟨_, _, _, rfl, tree_ordered hE ht, fun _ _ => rfl⟩
        · rw [if_neg hbk]
          exact reorder_ok hE ht hbk s.inCycle (fun x hx => (h.fresh x (hnew x hx)).2.1)
      obtain ⟨order, fills, inCycle, e2, ho, hin⟩ := hord
      have hpos := fun x => assignPos_eq order ho.nodup s.pos x
      have hrm : src.1 ∈ order := (ho.mem _).mpr ht.rootIn
      have hsl : assignPos order s.pos src.1 = some (order.idxOf src.1) := by rw [hpos, if_pos hrm]
      rw [e1]
      simp only [Option.bind_eq_bind, Option.bind_some]
      rw [e2]
      simp only [Option.bind_some]
      rw [hsl]
      simp only [Option.bind_some]
      refine ⟨_, rfl, ?_⟩
      have hgroup : ∀ x, v.group x = if x ∈ v.dfsNode then some s.islands.length else s.visit.group x := by
        intro x
        split_ifs with hx
        · exact hv.group x hx
        · exact (hv.untouched x hx).2.1
      refine ⟨hb, fun x => ?_, fun x hx => ?_, fun x => ?_, fun x g hg => ?_, fun g I hI => ?_⟩
      · show v.colour x = .black ↔ v.group x ≠ none
        rw [hgroup, hv.colour]
        split_ifs
        · simp
        · exact h.black x
      · show assignPos order s.pos x = none ∧ inCycle x = false ∧ v.shift x = 0
        have hx : v.group x = none := hx
        rw [hgroup] at hx
        split_ifs at hx with hxd
        obtain ⟨k1, k2, k3⟩ := h.fresh x hx
        rw [hpos, if_neg (fun e => hxd ((ho.mem x).mp e)), hin x hxd, (hv.untouched x hxd).2.2]
        exact ⟨k1, k2, k3⟩
      · show v.group x ≠ none ↔ _
        rw [hgroup]
        split_ifs with hxd
        · simp only [ne_eq, reduceCtorEq, not_false_eq_true, true_iff]
          exact ⟨src, by simp, h1, (hv.mem x).mp hxd⟩
        · rw [h.reached]
          constructor
          · exact mono x
          · rintro ⟨a, ha, k1, k2⟩
            rcases List.mem_append.mp ha with ha | ha
            · exact ⟨a, ha, k1, k2⟩
            · rw [List.mem_singleton] at ha
              rw [ha] at k2
              exact absurd ((hv.mem x).mpr k2) hxd
      · show g < (s.islands ++ [_]).length
        have hg : v.group x = some g := hg
        rw [List.length_append, List.length_singleton]
        rw [hgroup] at hg
        split_ifs at hg with hxd
        · injection hg with hg
          omega
        · have := h.range x g hg
          omega
      · have hI : (s.islands ++ [_])[g]? = some I := hI
        rcases Nat.lt_trichotomy g s.islands.length with hg | hg | hg
        · rw [List.getElem?_append_left hg] at hI
          obtain ⟨root, ord, k1, k2⟩ := h.islands g I hI
          have hdis : ∀ x ∈ ord, x ∉ v.dfsNode := by
            intro x hx hxd
            have := hnew x hxd
            rw [(k2.mem x).mp hx] at this
            cases this
          refine ⟨root, ord, by simp [k1], k2.rootIn, fun x => ?_, k2.reach, fun x hx => ?_, k2.ordered, k2.slack, ?_, fun x hx => ?_, k2.radial, k2.higher⟩
          · show x ∈ ord ↔ v.group x = some g
            rw [hgroup]
            split_ifs with hxd
            · constructor
              · intro hx
                exact absurd hxd (hdis x hx)
              · intro e
                injection e with e
                omega
            · exact k2.mem x
          · show assignPos order s.pos x = _
            rw [hpos, if_neg (fun e => hdis x hx ((ho.mem x).mp e))]
            exact k2.pos x hx
          · show I.phaseShift = ord.map v.shift
            rw [k2.shift]
            apply List.map_congr_left
            intro x hx
            exact ((hv.untouched x (hdis x hx)).2.2).symm
          · show EWay E root x (v.shift x)
            rw [(hv.untouched x (hdis x hx)).2.2]
            exact k2.walk x hx
        · subst hg
          rw [List.getElem?_append_right (Nat.le_refl _)] at hI
          simp only [Nat.sub_self, List.getElem?_cons_zero, Option.some.injEq] at hI
          subst hI
          refine ⟨src.1, order, by simp [← h1], hrm, fun x => ?_, fun x => ?_, fun x hx => ?_, ordered_self ho, rfl, rfl, fun x hx => ?_, ?_, fun hr x hx hl => ?_⟩
          · show x ∈ order ↔ v.group x = some _
            rw [hgroup, ho.mem]
            split_ifs with hxd
            · simp [hxd]
            · simp only [hxd, false_iff]
              intro e
              have := h.range x _ e
              omega
          · rw [ho.mem, hv.mem]
          · show assignPos order s.pos x = _
            rw [hpos, if_pos hx]
          · exact visited_way hv (h.fresh _ h2).2.2 x ((ho.mem x).mp hx)
          · have := back_cyc hE ht
            simp only [decide_eq_true_eq]
            rw [← not_iff_not, not_not]
            rw [← ne_eq, this]
            simp only [ho.mem]
          · have hbk : v.back = [] := by simpa using hr
            rw [hbk] at ht
            unfold islandOrder at e2
            rw [if_pos hbk] at e2
            injection e2 with e2
            obtain ⟨rfl, -⟩ := Prod.mk.injEq .. ▸ e2
            exact tree_higher hE ht ((ho.mem x).mp hx) (by simpa using hl)
        · rw [List.getElem?_eq_none (by simp; omega)] at hI
          cases hI
    · rw [if_pos h2]
      exact ⟨s, rfl, keep (fun _ => h2)⟩

theorem start_inv (E : List (Edge A)) : LoopInv E [] (start : State A) := by
  refine ⟨⟨fun v => by simp [start], fun e _ hs => by simp [start] at hs, fun v _ => rfl⟩, fun v => by simp [start], fun v _ => ⟨rfl, rfl, rfl⟩,
    fun v => by simp [start], fun v g hg => by simp [start] at hg, fun g I hI => by simp [start] at hI⟩

theorem dfs_ok {G : Grid A} (h : G.Valid) : ∃ s, dfsSearch G = some s ∧ LoopInv (edges G) G.sources s := by
  have main : ∀ (l done : List (Nat × Bool)) (s : State A), (∀ a ∈ l, a.1 < G.nTotal) → LoopInv (edges G) done s →
      ∃ s', l.foldlM (sourceStep (edges G) G.nTotal) s = some s' ∧ LoopInv (edges G) (done ++ l) s' := by
    intro l
    induction l with
    | nil => intro done s _ hs; exact ⟨s, rfl, by simpa using hs⟩
    | cons a l ih =>
      intro done s hl hs
      obtain ⟨s₁, h1, h2⟩ := source_ok (edges_undirected h) hs a (hl a (by simp))
      obtain ⟨s', h3, h4⟩ := ih (done ++ [a]) s₁ (fun b hb => hl b (by simp [hb])) h2
      refine ⟨s', ?_, by simpa using h4⟩
      rw [List.foldlM_cons, h1]
      exact h3
  obtain ⟨s, h1, h2⟩ := main G.sources [] start (fun a ha => by have := h.source a ha; unfold Grid.nTotal; omega) (start_inv _)
  exact ⟨s, h1, by simpa using h2⟩

end PGM.Topology
