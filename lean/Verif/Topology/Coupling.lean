import Verif.Topology.Islands

/-!
# The coupling of branches
-/

namespace PGM.Topology

variable {A : Type} [AddGroup A]

section nodes

variable {G : Grid A} {s : State A}

theorem node_of_group (h : LoopInv (edges G) G.sources s) {x g : Nat} (hg : s.visit.group x = some g) :
    ∃ I root order, s.islands[g]? = some I ∧ (root, true) ∈ G.sources ∧ IslandOk (edges G) s g I root order ∧ x ∈ order ∧
      s.node x = some (g, order.idxOf x) := by
  have hlt := h.range x g hg
  obtain ⟨root, order, h1, h2⟩ := h.islands g _ (List.getElem?_eq_getElem hlt)
  have hx := (h2.mem x).mpr hg
  refine ⟨_, root, order, List.getElem?_eq_getElem hlt, h1, h2, hx, ?_⟩
  unfold State.node
  rw [hg, h2.pos x hx]
  rfl

theorem node_group (h : LoopInv (edges G) G.sources s) (x : Nat) : (s.node x).map (·.1) = s.visit.group x := by
  cases hg : s.visit.group x with
  | none => unfold State.node; rw [hg]; rfl
  | some g =>
    obtain ⟨_, _, order, _, _, _, _, h1⟩ := node_of_group h hg
    rw [h1]; rfl

theorem linked_symm {x y : Nat} (h : Linked G x y) : Linked G y x := by
  obtain ⟨a, h⟩ := h
  cases h with
  | forward hb h1 h2 => exact ⟨_, Link.backward hb h1 h2⟩
  | backward hb h1 h2 => exact ⟨_, Link.forward hb h1 h2⟩
  | inward hb h1 => exact ⟨_, Link.outward hb h1⟩
  | outward hb h1 => exact ⟨_, Link.inward hb h1⟩

theorem linked_group (hG : G.Valid) (h : LoopInv (edges G) G.sources s) {x y : Nat} (hl : Linked G x y) :
    s.visit.group x = s.visit.group y := by
  have half : ∀ x y g, Linked G x y → s.visit.group x = some g → s.visit.group y = some g := by
    intro x y g hl hg
    obtain ⟨I, root, order, _, _, h2, hx, _⟩ := node_of_group h hg
    rw [← h2.mem, h2.reach, ← reach_iff hG]
    exact Relation.ReflTransGen.tail ((reach_iff hG _ _).mpr ((h2.reach x).mp hx)) hl
  cases hx : s.visit.group x with
  | some g => exact (half x y g hl hx).symm
  | none =>
    cases hy : s.visit.group y with
    | none => rfl
    | some g =>
      have := half y x g (linked_symm hl) hy
      rw [hx] at this; cases this

theorem energised_group (hG : G.Valid) (h : LoopInv (edges G) G.sources s) (x : Nat) : Energised G x ↔ s.visit.group x ≠ none := by
  rw [h.reached]
  unfold Energised
  constructor
  · rintro ⟨a, h1, h2, h3⟩
    exact ⟨a, h1, h2, (reach_iff hG _ _).mp h3⟩
  · rintro ⟨a, h1, h2, h3⟩
    exact ⟨a, h1, h2, (reach_iff hG _ _).mpr h3⟩

theorem inner_linked (hG : G.Valid) {k : Nat} {b : Branch3 A} (hb : G.branch3s[k]? = some b) {y : Nat} (hl : Linked G y (G.nNode + k)) :
    ∃ m, b.conn m = true ∧ y = b.node m := by
  obtain ⟨a, hl⟩ := hl
  generalize hz : G.nNode + k = z at hl
  cases hl with
  | @forward b' hb' h1 h2 => have := (hG.branch b' hb').2; omega
  | @backward b' hb' h1 h2 => have := (hG.branch b' hb').1; omega
  | @inward b' k' m hb' h1 =>
    have : k = k' := by omega
    subst this
    rw [hb] at hb'
    injection hb' with hb'
    subst hb'
    exact ⟨m, h1, rfl⟩
  | @outward b' k' m hb' h1 =>
    have := hG.branch3 b' (List.mem_of_getElem? hb') m
    omega

/-- The internal node of a branch with three sides has an island only through a closed side. -/
theorem inner_group (hG : G.Valid) (h : LoopInv (edges G) G.sources s) {k : Nat} {b : Branch3 A} (hb : G.branch3s[k]? = some b) {g : Nat}
    (hg : s.visit.group (G.nNode + k) = some g) : ∃ m, b.conn m = true ∧ s.visit.group (b.node m) = some g := by
  obtain ⟨I, root, order, _, hr, h2, hx, _⟩ := node_of_group h hg
  have hreach := (reach_iff hG _ _).mpr ((h2.reach _).mp hx)
  rcases Relation.ReflTransGen.cases_tail hreach with e | ⟨y, _, hy⟩
  · have := hG.source _ hr
    simp only at this
    omega
  · obtain ⟨m, h3, h4⟩ := inner_linked hG hb hy
    refine ⟨m, h3, ?_⟩
    rw [← h4, linked_group hG h hy, hg]

theorem side_some (h : LoopInv (edges G) G.sources s) {x g : Nat} {conn : Bool} (hc : conn = true → s.visit.group x = some g) :
    ∃ f, sidePos g conn (s.node x) = some f ∧ (conn = false → f = none) ∧ (conn = true → ∃ p, f = some p ∧ s.node x = some (g, p)) := by
  unfold sidePos
  cases conn with
  | false => exact ⟨none, rfl, fun _ => rfl, fun e => by cases e⟩
  | true =>
    obtain ⟨_, _, order, _, _, _, _, h1⟩ := node_of_group h (hc rfl)
    rw [h1]
    refine ⟨some (order.idxOf x), by simp, fun e => absurd e (by simp), fun _ => ⟨_, rfl, rfl⟩⟩

theorem branchGroup_none (h : LoopInv (edges G) G.sources s) (b : Branch A) : branchGroup b (s.node b.i) (s.node b.j) = none ↔
    ¬(b.iConn = true ∧ s.visit.group b.i ≠ none) ∧ ¬(b.jConn = true ∧ s.visit.group b.j ≠ none) := by
  unfold branchGroup
  rw [← node_group h, ← node_group h]
  cases b.iConn <;> cases b.jConn <;> cases s.node b.i <;> cases s.node b.j <;> simp

theorem branchGroup_some (hG : G.Valid) (h : LoopInv (edges G) G.sources s) {b : Branch A} (hb : b ∈ G.branches) {g : Nat}
    (hg : branchGroup b (s.node b.i) (s.node b.j) = some g) :
    (b.iConn = true → s.visit.group b.i = some g) ∧ (b.jConn = true → s.visit.group b.j = some g) := by
  have hl : b.iConn = true → b.jConn = true → s.visit.group b.i = s.visit.group b.j :=
    fun h1 h2 => linked_group hG h ⟨_, Link.forward hb h1 h2⟩
  unfold branchGroup at hg
  rw [← node_group h, ← node_group h] at *
  cases hi : b.iConn <;> cases hj : b.jConn <;> simp only [hi, hj, Bool.false_and, Bool.true_and, Bool.false_eq_true, if_false, reduceCtorEq,
    false_implies, true_implies, true_and, and_true] at hg hl ⊢
  · cases hm : s.node b.j <;> rw [hm] at hg <;> simp at hg
    simp [hg]
  · cases hm : s.node b.i <;> rw [hm] at hg <;> simp at hg
    simp [hg]
  · cases hm : s.node b.i with
    | none =>
      rw [hm] at hg hl
      cases hn : s.node b.j <;> rw [hn] at hl hg <;> simp at hl hg
    | some v =>
      rw [hm] at hg hl
      simp at hg
      rw [← hl]
      simp [hg]

theorem branch3Group_none (h : LoopInv (edges G) G.sources s) (b : Branch3 A) : branch3Group b (fun n => s.node (b.node n)) = none ↔
    ∀ m, ¬(b.conn m = true ∧ s.visit.group (b.node m) ≠ none) := by
  have h3 : (∀ m : Fin 3, ¬(b.conn m = true ∧ s.visit.group (b.node m) ≠ none)) ↔ (¬(b.conn 0 = true ∧ s.visit.group (b.node 0) ≠ none) ∧
      ¬(b.conn 1 = true ∧ s.visit.group (b.node 1) ≠ none) ∧ ¬(b.conn 2 = true ∧ s.visit.group (b.node 2) ≠ none)) := by
    constructor
    · intro h; exact ⟨h 0, h 1, h 2⟩
    · rintro ⟨h0, h1, h2⟩ m
      match m with
      | 0 => exact h0
      | 1 => exact h1
      | 2 => exact h2
  rw [h3, ← node_group h, ← node_group h, ← node_group h]
  unfold branch3Group
  simp only [List.foldl_cons, List.foldl_nil]
  cases b.conn 0 <;> cases b.conn 1 <;> cases b.conn 2 <;> cases s.node (b.node 0) <;> cases s.node (b.node 1) <;>
    cases s.node (b.node 2) <;> simp

theorem branch3Group_some (h : LoopInv (edges G) G.sources s) (b : Branch3 A) {g : Nat}
    (hg : branch3Group b (fun n => s.node (b.node n)) = some g) : ∃ m, b.conn m = true ∧ s.visit.group (b.node m) = some g := by
  have h3 : (∃ m : Fin 3, b.conn m = true ∧ s.visit.group (b.node m) = some g) ↔ ((b.conn 0 = true ∧ s.visit.group (b.node 0) = some g) ∨
      (b.conn 1 = true ∧ s.visit.group (b.node 1) = some g) ∨ (b.conn 2 = true ∧ s.visit.group (b.node 2) = some g)) := by
    constructor
    · rintro ⟨m, hm⟩
      match m, hm with
      | 0, hm => exact Or.inl hm
      | 1, hm => exact Or.inr (Or.inl hm)
      | 2, hm => exact Or.inr (Or.inr hm)
    · rintro (hm | hm | hm)
      · exact ⟨0, hm⟩
      · exact ⟨1, hm⟩
      · exact ⟨2, hm⟩
  rw [h3, ← node_group h, ← node_group h, ← node_group h]
  unfold branch3Group at hg
  simp only [List.foldl_cons, List.foldl_nil] at hg
  revert hg
  cases b.conn 0 <;> cases b.conn 1 <;> cases b.conn 2 <;> cases s.node (b.node 0) <;> cases s.node (b.node 1) <;>
    cases s.node (b.node 2) <;> simp (config := { contextual := true })

end nodes

/-! ## What is required of the branches -/

/-- How a side of a branch appears in an island: not at all if it is open, and otherwise with the bus of its node. -/
def SideOk (s : State A) (g : Nat) (conn : Bool) (x : Nat) (f : Option Nat) : Prop :=
  (conn = false → f = none) ∧ (conn = true → ∃ p, f = some p ∧ s.node x = some (g, p))

/-- A branch or a side of a branch with three sides is the branch `p` of island `g`. -/
def Slot (c : Coupled) (g p : Nat) : Nat ⊕ (Nat × Fin 3) → Prop
  | .inl k => c.branch[k]? = some (some (g, p))
  | .inr (k, m) => ∃ q, c.branch3[k]? = some (some (g, q)) ∧ q m = p

/-- What holds when the branches `bs` and the branches with three sides `b3` have been coupled. -/
structure CInv (G : Grid A) (s : State A) (bs : List (Branch A)) (b3 : List (Branch3 A × Nat)) (c : Coupled) : Prop where
  len : c.branch.length = bs.length
  len3 : c.branch3.length = b3.length
  off : ∀ (k : Nat) b, bs[k]? = some b → (c.branch[k]? = some none ↔ branchGroup b (s.node b.i) (s.node b.j) = none)
  on : ∀ (k : Nat) b g p, bs[k]? = some b → c.branch[k]? = some (some (g, p)) →
    ∃ f t, (c.branchBus g)[p]? = some (f, t) ∧ SideOk s g b.iConn b.i f ∧ SideOk s g b.jConn b.j t ∧
      branchGroup b (s.node b.i) (s.node b.j) = some g
  off3 : ∀ (k : Nat) b, b3[k]? = some b → (c.branch3[k]? = some none ↔ branch3Group b.1 (fun n => s.node (b.1.node n)) = none)
  on3 : ∀ (k : Nat) b g q, b3[k]? = some b → c.branch3[k]? = some (some (g, q)) → ∃ pj, s.node b.2 = some (g, pj) ∧
    ∀ m, ∃ f, (c.branchBus g)[q m]? = some (f, some pj) ∧ SideOk s g (b.1.conn m) (b.1.node m) f
  slot : ∀ g p, (∃ src, Slot c g p src) ↔ p < (c.branchBus g).length
  unique : ∀ g p a a', Slot c g p a → Slot c g p a' → a = a'

theorem start_cinv (G : Grid A) (s : State A) : CInv G s [] [] ⟨fun _ => [], [], []⟩ := by
  refine ⟨rfl, rfl, by simp, by simp, by simp, by simp, fun g p => ?_, fun g p a a' h => ?_⟩
  · constructor
    · rintro ⟨a, h⟩
      rcases a with k | ⟨k, m⟩
      · simp [Slot] at h
      · obtain ⟨q, h, _⟩ := h
        simp at h
    · intro h; simp at h
  · rcases a with k | ⟨k, m⟩
    · simp [Slot] at h
    · obtain ⟨q, h, _⟩ := h
      simp at h

theorem push_bus (c : Coupled) (g : Nat) (b : Option Nat × Option Nat) (g' : Nat) :
    (c.push g b).branchBus g' = if g' = g then c.branchBus g ++ [b] else c.branchBus g' := by
  exact Function.update_apply _ _ _ _

theorem coupleStep_ok {G : Grid A} {s : State A} (hG : G.Valid) (h : LoopInv (edges G) G.sources s) {bs : List (Branch A)} {c : Coupled}
    (hc : CInv G s bs [] c) {b : Branch A} (hb : b ∈ G.branches) : ∃ c', coupleStep s c b = some c' ∧ CInv G s (bs ++ [b]) [] c' := by
  unfold coupleStep
  simp only
  cases hg : branchGroup b (s.node b.i) (s.node b.j) with
  | none =>
    refine ⟨_, rfl, ?_⟩
    have hslot : ∀ g p a, Slot { c with branch := c.branch ++ [none] } g p a ↔ Slot c g p a := by
      intro g p a
      rcases a with k | ⟨k, m⟩
      · show (c.branch ++ [none])[k]? = _ ↔ c.branch[k]? = _
        rcases Nat.lt_trichotomy k c.branch.length with hk | hk | hk
        · rw [List.getElem?_append_left hk]
        · rw [hk, List.getElem?_append_right (Nat.le_refl _), List.getElem?_eq_none (Nat.le_refl c.branch.length)]
          simp
        · rw [List.getElem?_eq_none (by simp; omega), List.getElem?_eq_none (by omega)]
      · exact Iff.rfl
    refine ⟨by simp [hc.len], hc.len3, fun k b' hk => ?_, fun k b' g p hk hk' => ?_, hc.off3, hc.on3, fun g p => ?_, fun g p a a' h1 h2 => ?_⟩
    · show (c.branch ++ [none])[k]? = _ ↔ _
      rcases Nat.lt_trichotomy k bs.length with hl | hl | hl
      · rw [List.getElem?_append_left hl] at hk
        rw [List.getElem?_append_left (by rw [hc.len]; exact hl)]
        exact hc.off k b' hk
      · rw [hl, List.getElem?_append_right (Nat.le_refl _)] at hk
        simp only [Nat.sub_self, List.getElem?_cons_zero, Option.some.injEq] at hk
        rw [← hk, hl, ← hc.len, List.getElem?_append_right (Nat.le_refl _)]
        simp [hg]
      · rw [List.getElem?_eq_none (by simp; omega)] at hk
        cases hk
    · have hk' : (c.branch ++ [none])[k]? = _ := hk'
      rcases Nat.lt_trichotomy k bs.length with hl | hl | hl
      · rw [List.getElem?_append_left hl] at hk
        rw [List.getElem?_append_left (by rw [hc.len]; exact hl)] at hk'
        exact hc.on k b' g p hk hk'
      · rw [hl, ← hc.len, List.getElem?_append_right (Nat.le_refl _)] at hk'
        simp at hk'
      · rw [List.getElem?_eq_none (by simp; omega)] at hk
        cases hk
    · simp only [hslot]
      exact hc.slot g p
    · exact hc.unique g p a a' ((hslot _ _ _).mp h1) ((hslot _ _ _).mp h2)
  | some g =>
    obtain ⟨gi, gj⟩ := branchGroup_some hG h hb hg
    obtain ⟨f, f1, f2, f3⟩ := side_some h gi
    obtain ⟨t, t1, t2, t3⟩ := side_some h gj
    simp only [f1, t1, Option.bind_eq_bind, Option.bind_some]
    refine ⟨_, rfl, ?_⟩
    set c' : Coupled := { c.push g (f, t) with branch := c.branch ++ [some (g, (c.branchBus g).length)] } with hc'
    have hbus : ∀ g', c'.branchBus g' = if g' = g then c.branchBus g ++ [(f, t)] else c.branchBus g' := push_bus c g (f, t)
    have hbr : c'.branch = c.branch ++ [some (g, (c.branchBus g).length)] := rfl
    have hb3 : c'.branch3 = c.branch3 := rfl
    have hkeep : ∀ (g' p : Nat) v, (c.branchBus g')[p]? = some v → (c'.branchBus g')[p]? = some v := by
      intro g' p v hv
      rw [hbus]
      split_ifs with e
      · rw [e] at hv
        have hl : p < (c.branchBus g).length := by
          by_contra hn
          rw [List.getElem?_eq_none (by omega)] at hv
          cases hv
        rw [List.getElem?_append_left hl]; exact hv
      · exact hv
    have hnew : ∀ (k : Nat) v, c'.branch[k]? = some v ↔ c.branch[k]? = some v ∨ (k = bs.length ∧ v = some (g, (c.branchBus g).length)) := by
      intro k v
      rw [hbr]
      rcases Nat.lt_trichotomy k bs.length with hl | hl | hl
      · rw [List.getElem?_append_left (by rw [hc.len]; exact hl)]
        constructor
        · exact Or.inl
        · rintro (e | ⟨e, _⟩)
          · exact e
          · omega
      · rw [hl, ← hc.len, List.getElem?_append_right (Nat.le_refl _), List.getElem?_eq_none (Nat.le_refl c.branch.length)]
        simp [eq_comm]
      · rw [List.getElem?_eq_none (by simp [hc.len]; omega), List.getElem?_eq_none (by rw [hc.len]; omega)]
        constructor
        · intro e; cases e
        · rintro (e | ⟨e, _⟩)
          · cases e
          · omega
    have hslot : ∀ g' p a, Slot c' g' p a ↔ Slot c g' p a ∨ (a = .inl bs.length ∧ g' = g ∧ p = (c.branchBus g).length) := by
      intro g' p a
      rcases a with k | ⟨k, m⟩
      · show c'.branch[k]? = _ ↔ c.branch[k]? = _ ∨ _
        rw [hnew]
        simp
      · show (∃ q, c'.branch3[k]? = some (some (g', q)) ∧ q m = p) ↔ (∃ q, c.branch3[k]? = some (some (g', q)) ∧ q m = p) ∨ _
        rw [hb3]
        simp
    have hold : ∀ g' p a, Slot c g' p a → p < (c.branchBus g').length := fun g' p a ha => (hc.slot g' p).mp ⟨a, ha⟩
    refine ⟨by rw [hbr]; simp [hc.len], hc.len3, fun k b' hk => ?_, fun k b' g' p hk hk' => ?_, hc.off3, fun k b' g' q hk hk' => ?_, fun g' p => ?_,
      fun g' p a a' h1 h2 => ?_⟩
    · rw [hnew]
      rcases Nat.lt_trichotomy k bs.length with hl | hl | hl
      · rw [List.getElem?_append_left hl] at hk
        rw [← hc.off k b' hk]
        simp
      · rw [hl, List.getElem?_append_right (Nat.le_refl _)] at hk
        simp only [Nat.sub_self, List.getElem?_cons_zero, Option.some.injEq] at hk
        rw [← hk, hg, List.getElem?_eq_none (by rw [hc.len]; omega)]
        simp
      · rw [List.getElem?_eq_none (by simp; omega)] at hk
        cases hk
    · rw [hnew] at hk'
      rcases hk' with hk' | ⟨hl, hk'⟩
      · have hl : k < bs.length := by
          by_contra hn
          rw [List.getElem?_eq_none (by rw [hc.len]; omega)] at hk'
          cases hk'
        rw [List.getElem?_append_left hl] at hk
        obtain ⟨f', t', h1, h2⟩ := hc.on k b' g' p hk hk'
        exact ⟨f', t', hkeep _ _ _ h1, h2⟩
      · rw [hl, List.getElem?_append_right (Nat.le_refl _)] at hk
        simp only [Nat.sub_self, List.getElem?_cons_zero, Option.some.injEq, Prod.mk.injEq] at hk hk'
        rw [← hk, hk'.1, hk'.2]
        refine ⟨f, t, ?_, ⟨f2, f3⟩, ⟨t2, t3⟩, hg⟩
        rw [hbus, if_pos rfl, List.getElem?_append_right (Nat.le_refl _)]
        simp
    · obtain ⟨pj, h1, h2⟩ := hc.on3 k b' g' q hk hk'
      refine ⟨pj, h1, fun m => ?_⟩
      obtain ⟨f', h3, h4⟩ := h2 m
      exact ⟨f', hkeep _ _ _ h3, h4⟩
    · simp only [hslot]
      rw [hbus]
      constructor
      · rintro ⟨a, h1 | ⟨_, h1, h2⟩⟩
        · have := hold _ _ _ h1
          split_ifs with e
          · rw [e] at this; simp; omega
          · exact this
        · rw [if_pos h1, h2]; simp
      · intro hp
        split_ifs at hp with e
        · subst e
          rw [List.length_append, List.length_singleton] at hp
          rcases Nat.lt_or_eq_of_le (Nat.lt_succ_iff.mp hp) with h1 | h1
          · obtain ⟨a, ha⟩ := (hc.slot g' p).mpr h1
            exact ⟨a, Or.inl ha⟩
          · exact ⟨_, Or.inr ⟨rfl, rfl, h1⟩⟩
        · obtain ⟨a, ha⟩ := (hc.slot g' p).mpr hp
          exact ⟨a, Or.inl ha⟩
    · rw [hslot] at h1 h2
      rcases h1 with h1 | ⟨h1, h3, h4⟩ <;> rcases h2 with h2 | ⟨h2, h5, h6⟩
      · exact hc.unique g' p a a' h1 h2
      · have := hold _ _ _ h1
        rw [h5, h6] at this; omega
      · have := hold _ _ _ h2
        rw [h3, h4] at this; omega
      · rw [h1, h2]

theorem couple3Step_ok {G : Grid A} {s : State A} (hG : G.Valid) (h : LoopInv (edges G) G.sources s) {bs : List (Branch A)}
    {b3 : List (Branch3 A × Nat)} {c : Coupled} (hc : CInv G s bs b3 c) {b : Branch3 A} {k₀ : Nat} (hb : G.branch3s[k₀]? = some b) :
    ∃ c', couple3Step s c (b, G.nNode + k₀) = some c' ∧ CInv G s bs (b3 ++ [(b, G.nNode + k₀)]) c' := by
  unfold couple3Step
  cases hg : branch3Group b (fun n => s.node (b.node n)) with
  | none =>
    have hj : s.node (G.nNode + k₀) = none := by
      cases hn : s.visit.group (G.nNode + k₀) with
      | none => unfold State.node; rw [hn]; rfl
      | some g =>
        exfalso
        obtain ⟨m, h1, h2⟩ := inner_group hG h hb hn
        exact (branch3Group_none h b).mp hg m ⟨h1, by rw [h2]; simp⟩
    simp only [hj, if_true]
    refine ⟨_, rfl, ?_⟩
    have hslot : ∀ g p a, Slot { c with branch3 := c.branch3 ++ [none] } g p a ↔ Slot c g p a := by
      intro g p a
      rcases a with k | ⟨k, m⟩
      · exact Iff.rfl
      · show (∃ q, (c.branch3 ++ [none])[k]? = some (some (g, q)) ∧ q m = p) ↔ (∃ q, c.branch3[k]? = some (some (g, q)) ∧ q m = p)
        have : ∀ q, (c.branch3 ++ [none])[k]? = some (some (g, q)) ↔ c.branch3[k]? = some (some (g, q)) := by
          intro q
          rcases Nat.lt_trichotomy k c.branch3.length with hk | hk | hk
          · rw [List.getElem?_append_left hk]
          · rw [hk, List.getElem?_append_right (Nat.le_refl _), List.getElem?_eq_none (Nat.le_refl c.branch3.length)]
            simp
          · rw [List.getElem?_eq_none (by simp; omega), List.getElem?_eq_none (by omega)]
        simp only [this]
    refine ⟨hc.len, by simp [hc.len3], hc.off, hc.on, fun k b' hk => ?_, fun k b' g p hk hk' => ?_, fun g p => ?_, fun g p a a' h1 h2 => ?_⟩
    · show (c.branch3 ++ [none])[k]? = _ ↔ _
      rcases Nat.lt_trichotomy k b3.length with hl | hl | hl
      · rw [List.getElem?_append_left hl] at hk
        rw [List.getElem?_append_left (by rw [hc.len3]; exact hl)]
        exact hc.off3 k b' hk
      · rw [hl, List.getElem?_append_right (Nat.le_refl _)] at hk
        simp only [Nat.sub_self, List.getElem?_cons_zero, Option.some.injEq] at hk
        rw [← hk, hl, ← hc.len3, List.getElem?_append_right (Nat.le_refl _)]
        simp [hg]
      · rw [List.getElem?_eq_none (by simp; omega)] at hk
        cases hk
    · have hk' : (c.branch3 ++ [none])[k]? = _ := hk'
      rcases Nat.lt_trichotomy k b3.length with hl | hl | hl
      · rw [List.getElem?_append_left hl] at hk
        rw [List.getElem?_append_left (by rw [hc.len3]; exact hl)] at hk'
        exact hc.on3 k b' g p hk hk'
      · rw [hl, ← hc.len3, List.getElem?_append_right (Nat.le_refl _)] at hk'
        simp at hk'
      · rw [List.getElem?_eq_none (by simp; omega)] at hk
        cases hk
    · simp only [hslot]
      exact hc.slot g p
    · exact hc.unique g p a a' ((hslot _ _ _).mp h1) ((hslot _ _ _).mp h2)
  | some g =>
    obtain ⟨m₀, hm1, hm2⟩ := branch3Group_some h b hg
    have hgj : s.visit.group (G.nNode + k₀) = some g := by
      rw [← linked_group hG h ⟨_, Link.inward hb hm1⟩, hm2]
    obtain ⟨_, _, order, _, _, _, _, hj⟩ := node_of_group h hgj
    have hside : ∀ m, b.conn m = true → s.visit.group (b.node m) = some g := by
      intro m hm
      rw [linked_group hG h ⟨_, Link.inward hb hm⟩, hgj]
    obtain ⟨f0, a1, a2⟩ := side_some h (hside 0)
    obtain ⟨f1, b1, b2⟩ := side_some h (hside 1)
    obtain ⟨f2, c1, c2⟩ := side_some h (hside 2)
    set pj := order.idxOf (G.nNode + k₀) with hpj
    simp only [hj, if_true]
    simp only [List.foldlM_cons, List.foldlM_nil, sideStep, a1, b1, c1, Option.bind_eq_bind, Option.bind_some, pure]
    refine ⟨_, rfl, ?_⟩
    set c' : Coupled := _ with hc'
    show CInv G s bs (b3 ++ [(b, G.nNode + k₀)]) c'
    set L := (c.branchBus g).length with hL
    have hbus : ∀ g', c'.branchBus g' = if g' = g then c.branchBus g ++ [(f0, some pj), (f1, some pj), (f2, some pj)] else c.branchBus g' := by
      intro g'
      show (((c.push g (f0, some pj)).push g (f1, some pj)).push g (f2, some pj)).branchBus g' = _
      simp only [push_bus, if_true]
      split_ifs <;> simp
    have hbr : c'.branch = c.branch := rfl
    have hq : ∃ q : Fin 3 → Nat, c'.branch3 = c.branch3 ++ [some (g, q)] ∧ q 0 = L ∧ q 1 = L + 1 ∧ q 2 = L + 2 := by
      refine ⟨_, rfl, ?_, ?_, ?_⟩
      · simp [Function.update_apply, push_bus, hL]
      · simp [Function.update_apply, push_bus, hL]
      · simp [Function.update_apply, push_bus, hL]
    obtain ⟨q, hbr3, q0, q1, q2⟩ := hq
    have hqm : ∀ m : Fin 3, q m = L + m.val := by
      intro m
      match m with
      | 0 => exact q0
      | 1 => exact q1
      | 2 => exact q2
    clear_value c'
    clear hc'
    have hkeep : ∀ (g' p : Nat) v, (c.branchBus g')[p]? = some v → (c'.branchBus g')[p]? = some v := by
      intro g' p v hv
      rw [hbus]
      split_ifs with e
      · rw [e] at hv
        have hl : p < (c.branchBus g).length := by
          by_contra hn
          rw [List.getElem?_eq_none (by omega)] at hv
          cases hv
        rw [List.getElem?_append_left hl]; exact hv
      · exact hv
    have hnew : ∀ (k : Nat) v, c'.branch3[k]? = some v ↔ c.branch3[k]? = some v ∨ (k = b3.length ∧ v = some (g, q)) := by
      intro k v
      rw [hbr3]
      rcases Nat.lt_trichotomy k b3.length with hl | hl | hl
      · rw [List.getElem?_append_left (by rw [hc.len3]; exact hl)]
        constructor
        · exact Or.inl
        · rintro (e | ⟨e, _⟩)
          · exact e
          · omega
      · rw [hl, ← hc.len3, List.getElem?_append_right (Nat.le_refl _), List.getElem?_eq_none (Nat.le_refl c.branch3.length)]
        simp [eq_comm]
      · rw [List.getElem?_eq_none (by simp [hc.len3]; omega), List.getElem?_eq_none (by rw [hc.len3]; omega)]
        constructor
        · intro e; cases e
        · rintro (e | ⟨e, _⟩)
          · cases e
          · omega
    have hslot : ∀ g' p a, Slot c' g' p a ↔ Slot c g' p a ∨ (∃ m, a = .inr (b3.length, m) ∧ g' = g ∧ p = L + m.val) := by
      intro g' p a
      rcases a with k | ⟨k, m⟩
      · show c'.branch[k]? = _ ↔ c.branch[k]? = _ ∨ _
        rw [hbr]
        simp
      · show (∃ q, c'.branch3[k]? = some (some (g', q)) ∧ q m = p) ↔ (∃ q, c.branch3[k]? = some (some (g', q)) ∧ q m = p) ∨ _
        simp only [hnew]
        constructor
        · rintro ⟨q', h1 | ⟨h1, h2⟩, h3⟩
          · exact Or.inl ⟨q', h1, h3⟩
          · right
            simp only [Option.some.injEq, Prod.mk.injEq] at h2
            refine ⟨m, by rw [h1], h2.1, ?_⟩
            rw [← h3, h2.2, hqm]
        · rintro (⟨q', h1, h3⟩ | ⟨m', h1, h2, h3⟩)
          · exact ⟨q', Or.inl h1, h3⟩
          · simp only [Sum.inr.injEq, Prod.mk.injEq] at h1
            refine ⟨q, Or.inr ⟨h1.1, by rw [h2]⟩, ?_⟩
            rw [hqm, h3, h1.2]
    have hold : ∀ g' p a, Slot c g' p a → p < (c.branchBus g').length := fun g' p a ha => (hc.slot g' p).mp ⟨a, ha⟩
    refine ⟨by rw [hbr]; exact hc.len, by rw [hbr3]; simp [hc.len3], fun k b' hk => by rw [hbr]; exact hc.off k b' hk, fun k b' g' p hk hk' => ?_,
      fun k b' hk => ?_, fun k b' g' q' hk hk' => ?_, fun g' p => ?_, fun g' p a a' h1 h2 => ?_⟩
    · rw [hbr] at hk'
      obtain ⟨f', t', h1, h2⟩ := hc.on k b' g' p hk hk'
      exact ⟨f', t', hkeep _ _ _ h1, h2⟩
    · rw [hnew]
      rcases Nat.lt_trichotomy k b3.length with hl | hl | hl
      · rw [List.getElem?_append_left hl] at hk
        rw [← hc.off3 k b' hk]
        simp
      · rw [hl, List.getElem?_append_right (Nat.le_refl _)] at hk
        simp only [Nat.sub_self, List.getElem?_cons_zero, Option.some.injEq] at hk
        rw [← hk, hg, List.getElem?_eq_none (by rw [hc.len3]; omega)]
        simp
      · rw [List.getElem?_eq_none (by simp; omega)] at hk
        cases hk
    · rw [hnew] at hk'
      rcases hk' with hk' | ⟨hl, hk'⟩
      · have hl : k < b3.length := by
          by_contra hn
          rw [List.getElem?_eq_none (by rw [hc.len3]; omega)] at hk'
          cases hk'
        rw [List.getElem?_append_left hl] at hk
        obtain ⟨p', h1, h2⟩ := hc.on3 k b' g' q' hk hk'
        refine ⟨p', h1, fun m => ?_⟩
        obtain ⟨f', h3, h4⟩ := h2 m
        exact ⟨f', hkeep _ _ _ h3, h4⟩
      · rw [hl, List.getElem?_append_right (Nat.le_refl _)] at hk
        simp only [Nat.sub_self, List.getElem?_cons_zero, Option.some.injEq, Prod.mk.injEq] at hk hk'
        rw [← hk, hk'.1, hk'.2]
        refine ⟨pj, hj, fun m => ?_⟩
        rw [hbus, if_pos rfl, hqm, List.getElem?_append_right (by omega)]
        have hsub : L + m.val - (c.branchBus g).length = m.val := by omega
        rw [hsub]
        match m with
        | 0 => exact ⟨f0, rfl, a2⟩
        | 1 => exact ⟨f1, rfl, b2⟩
        | 2 => exact ⟨f2, rfl, c2⟩
    · simp only [hslot]
      rw [hbus]
      constructor
      · rintro ⟨a, h1 | ⟨m, _, h1, h2⟩⟩
        · have := hold _ _ _ h1
          split_ifs with e
          · rw [e] at this; simp; omega
          · exact this
        · rw [if_pos h1, h2]
          have := m.isLt
          simp only [List.length_append, List.length_cons, List.length_nil]
          omega
      · intro hp
        split_ifs at hp with e
        · subst e
          simp only [List.length_append, List.length_cons, List.length_nil] at hp
          by_cases h1 : p < L
          · obtain ⟨a, ha⟩ := (hc.slot g' p).mpr h1
            exact ⟨a, Or.inl ha⟩
          · exact ⟨.inr (b3.length, ⟨p - L, by omega⟩), Or.inr ⟨⟨p - L, by omega⟩, rfl, rfl, by simp only; omega⟩⟩
        · obtain ⟨a, ha⟩ := (hc.slot g' p).mpr hp
          exact ⟨a, Or.inl ha⟩
    · rw [hslot] at h1 h2
      rcases h1 with h1 | ⟨m, h1, h3, h4⟩ <;> rcases h2 with h2 | ⟨m', h2, h5, h6⟩
      · exact hc.unique g' p a a' h1 h2
      · have := hold _ _ _ h1
        rw [h5, h6] at this; omega
      · have := hold _ _ _ h2
        rw [h3, h4] at this; omega
      · rw [h1, h2]
        have : m = m' := Fin.ext (by omega)
        rw [this]

theorem coupleBranch_ok {G : Grid A} {s : State A} (hG : G.Valid) (h : LoopInv (edges G) G.sources s) :
    ∃ c, coupleBranch G s = some c ∧ CInv G s G.branches (G.branch3s.zipIdx.map fun b => (b.1, G.nNode + b.2)) c := by
  have main : ∀ (l bs : List (Branch A)) (c : Coupled), (∀ b ∈ l, b ∈ G.branches) → CInv G s bs [] c →
      ∃ c', l.foldlM (coupleStep s) c = some c' ∧ CInv G s (bs ++ l) [] c' := by
    intro l
    induction l with
    | nil => intro bs c _ hc; exact ⟨c, rfl, by simpa using hc⟩
    | cons a l ih =>
      intro bs c hl hc
      obtain ⟨c₁, h1, h2⟩ := coupleStep_ok hG h hc (hl a (by simp))
      obtain ⟨c', h3, h4⟩ := ih (bs ++ [a]) c₁ (fun b hb => hl b (by simp [hb])) h2
      refine ⟨c', ?_, by simpa using h4⟩
      rw [List.foldlM_cons, h1]
      exact h3
  have main3 : ∀ (l : List (Branch3 A × Nat)) (b3 : List (Branch3 A × Nat)) (c : Coupled), (∀ b ∈ l, ∃ k, G.branch3s[k]? = some b.1 ∧ b.2 = G.nNode + k) →
      CInv G s G.branches b3 c → ∃ c', l.foldlM (couple3Step s) c = some c' ∧ CInv G s G.branches (b3 ++ l) c' := by
    intro l
    induction l with
    | nil => intro bs c _ hc; exact ⟨c, rfl, by simpa using hc⟩
    | cons a l ih =>
      intro bs c hl hc
      obtain ⟨k, hk, hk'⟩ := hl a (by simp)
      obtain ⟨c₁, h1, h2⟩ := couple3Step_ok hG h hc hk
      have ha : (a.1, G.nNode + k) = a := by rw [← hk']
      rw [ha] at h1 h2
      obtain ⟨c', h3, h4⟩ := ih (bs ++ [a]) c₁ (fun b hb => hl b (by simp [hb])) h2
      refine ⟨c', ?_, by simpa using h4⟩
      rw [List.foldlM_cons, h1]
      exact h3
  obtain ⟨c₁, h1, h2⟩ := main G.branches [] _ (fun b hb => hb) (start_cinv G s)
  simp only [List.nil_append] at h2
  obtain ⟨c, h3, h4⟩ := main3 (G.branch3s.zipIdx.map fun b => (b.1, G.nNode + b.2)) [] c₁ (by
    intro b hb
    obtain ⟨⟨b', k⟩, hb', rfl⟩ := List.mem_map.mp hb
    exact ⟨k, List.mk_mem_zipIdx_iff_getElem?.mp hb', rfl⟩) h2
  refine ⟨c, ?_, by simpa using h4⟩
  unfold coupleBranch
  rw [h1]
  exact h3

end PGM.Topology
