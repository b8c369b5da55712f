import Verif.Ordering.Loop

/-!
# The ordering of the buses and the fill-in (C13)

The specification speaks of an undirected graph and of the elimination of its vertices in a given order.
-/

namespace PGM.Ordering

/-- Two vertices are connected in the graph that is passed: one is listed with the other. -/
def Edge (d : Adj) (x y : Nat) : Prop := y ∈ d.nb x ∨ x ∈ d.nb y

/-- The vertices: the keys and everything that is listed. -/
def Vertex (d : Adj) (x : Nat) : Prop := x ∈ d.keys ∨ ∃ k, x ∈ d.nb k

/-- `a` comes before `b` in the list. -/
def Before (l : List Nat) (a b : Nat) : Prop := ∃ p q, l = p ++ a :: q ∧ b ∈ q

/-- The entries that appear when the vertices are eliminated in the order of the list: to begin with the edges, and then, whenever a vertex is
eliminated, an entry between any two later vertices it has entries with. -/
inductive Entry (d : Adj) (order : List Nat) : Nat → Nat → Prop
  | edge {x y : Nat} : Edge d x y → Entry d order x y
  | fill {z x y : Nat} : Before order z x → Before order z y → x ≠ y → Entry d order z x → Entry d order z y → Entry d order x y

/-- A graph as the function takes it: a map (keys are sorted and different, other vertices have no list), no vertex is listed with itself and
every vertex has an edge. -/
structure Graph (d : Adj) : Prop where
  sorted : d.keys.Pairwise (· < ·)
  supp : ∀ k, d.nb k ≠ [] → k ∈ d.keys
  loopless : ∀ k, ¬Edge d k k
  notIsolated : ∀ k ∈ d.keys, ∃ e, Edge d k e

theorem before_pos {l : List Nat} (hn : l.Nodup) {a b : Nat} (h : Before l a b) : l.idxOf a < l.idxOf b := by
  obtain ⟨p, q, rfl, hb⟩ := h
  have hap : a ∉ p := by
    intro e
    exact (List.nodup_append.mp hn).2.2 a e a (by simp) rfl
  have hbp : b ∉ p := by
    intro e
    exact (List.nodup_append.mp hn).2.2 b e b (by simp [hb]) rfl
  have hab : a ≠ b := by
    rintro rfl
    exact (List.nodup_cons.mp (List.nodup_append.mp hn).2.1).1 hb
  rw [List.idxOf_append_of_notMem hap, List.idxOf_append_of_notMem hbp, List.idxOf_cons_self, List.idxOf_cons_ne _ hab]
  omega

theorem done_entry {d : Adj} {alpha : List Nat} {fills : List (Nat × Nat)} (h : Done (Vertex d) (Edge d) alpha fills) (x y : Nat) :
    Entry d alpha x y ↔ Edge d x y ∨ (x, y) ∈ fills ∨ (y, x) ∈ fills := by
  constructor
  · intro hE
    induction hE with
    | edge h1 => exact Or.inl h1
    | @fill z x y b1 b2 hne _ _ i1 i2 =>
      obtain ⟨p, q, hs, hx⟩ := b1
      obtain ⟨p', q', hs', hy⟩ := b2
      have hpos : p = p' ∧ q = q' := by
        have hn := h.nodup
        have hz : z ∉ p := fun e => (List.nodup_append.mp (hs ▸ hn)).2.2 z e z (by simp) rfl
        have hz' : z ∉ p' := fun e => (List.nodup_append.mp (hs' ▸ hn)).2.2 z e z (by simp) rfl
        have e1 : p.length = p'.length := by
          have a1 : alpha.idxOf z = p.length := by rw [hs, List.idxOf_append_of_notMem hz]; simp
          have a2 : alpha.idxOf z = p'.length := by rw [hs', List.idxOf_append_of_notMem hz']; simp
          omega
        have := List.append_inj (hs.symm.trans hs') e1
        exact ⟨this.1, (List.cons.inj this.2).2⟩
      exact h.closed p z q hs x hx y (hpos.2 ▸ hy) hne i1 i2
  · have main : ∀ n x y, min (alpha.idxOf x) (alpha.idxOf y) ≤ n → With (Edge d) fills x y → Entry d alpha x y := by
      intro n
      induction n using Nat.strongRecOn with
      | _ n ih =>
        intro x y hn hW
        have fillCase : ∀ f, f ∈ fills → min (alpha.idxOf f.1) (alpha.idxOf f.2) ≤ n → ∃ z, Before alpha z f.1 ∧ Before alpha z f.2 ∧
            f.1 ≠ f.2 ∧ Entry d alpha z f.1 ∧ Entry d alpha z f.2 := by
          intro f hf hfn
          obtain ⟨p, a, q, h1, h2, h3, h4, h5⟩ := h.need f hf
          have b1 : Before alpha a f.1 := ⟨p, q, h1, h2⟩
          have b2 : Before alpha a f.2 := ⟨p, q, h1, h3⟩
          have l1 := before_pos h.nodup b1
          have l2 := before_pos h.nodup b2
          exact ⟨a, b1, b2, (h.off f hf).1, ih (alpha.idxOf a) (by omega) a f.1 (by omega) h4,
            ih (alpha.idxOf a) (by omega) a f.2 (by omega) h5⟩
        rcases hW with h1 | h1 | h1
        · exact Entry.edge h1
        · obtain ⟨z, b1, b2, hne, e1, e2⟩ := fillCase (x, y) h1 hn
          exact Entry.fill b1 b2 hne e1 e2
        · obtain ⟨z, b1, b2, hne, e1, e2⟩ := fillCase (y, x) h1 (by simp only; omega)
          exact Entry.fill b2 b1 (fun e => hne e.symm) e2 e1
    exact main _ x y (Nat.le_refl _)

/-- C13: the ordering lists every vertex exactly once, and the fill-ins that are returned are exactly the entries that the elimination in that
order creates beside the edges of the graph. -/
theorem ordering_correct (d : Adj) (h : Graph d) :
    ∃ order fills, minimumDegreeOrdering d = some (order, fills) ∧ order.Nodup ∧ (∀ x, x ∈ order ↔ Vertex d x) ∧
      ∀ x y, Entry d order x y ↔ Edge d x y ∨ (x, y) ∈ fills ∨ (y, x) ∈ fills := by
  by_cases hne : d.keys = []
  · have hnb : ∀ k, d.nb k = [] := by
      intro k
      by_contra e
      have := h.supp k e
      rw [hne] at this; simp at this
    refine ⟨[], [], ?_, List.nodup_nil, ?_, ?_⟩
    · have hb : bound d = 1 := by unfold bound; simp [hne]
      have hs : symmetrise d = some d := by
        unfold symmetrise
        rw [hb]
        show (if (0 : Nat) ∈ d.keys then symmKey d 0 else some d).bind _ = _
        rw [hne]
        simp [List.foldlM]
      unfold minimumDegreeOrdering
      rw [hs]
      simp only [Option.bind_eq_bind, Option.bind_some]
      have : (dedup d).keys = [] := hne
      rw [this]
      rfl
    · intro x; unfold Vertex; simp [hne, hnb]
    · intro x y
      constructor
      · intro hE
        induction hE with
        | edge h1 => exact Or.inl h1
        | fill b1 =>
          obtain ⟨p, q, hs, _⟩ := b1
          simp at hs
      · rintro (h1 | h1 | h1)
        · exact Entry.edge h1
        · simp at h1
        · simp at h1
  · obtain ⟨alpha, fills, h1, h2⟩ := ordering_done ⟨h.sorted, h.supp, fun k e => h.loopless k (Or.inl e)⟩ h.notIsolated hne
    exact ⟨alpha, fills, h1, h2.nodup, fun x => (h2.all x).symm, done_entry h2⟩

/-- C13: a fill-in is between two different vertices that were not connected, and it is returned once, in one direction. -/
theorem fills_new (d : Adj) (h : Graph d) {order : List Nat} {fills : List (Nat × Nat)}
    (hr : minimumDegreeOrdering d = some (order, fills)) :
    (∀ x y, (x, y) ∈ fills → x ≠ y ∧ ¬Edge d x y ∧ Vertex d x ∧ Vertex d y ∧ (y, x) ∉ fills) ∧ fills.Nodup := by
  by_cases hne : d.keys = []
  · obtain ⟨o, f, h1, _, h3, h4⟩ := ordering_correct d h
    rw [hr] at h1
    injection h1 with h1
    injection h1 with h1 h1'
    subst h1 h1'
    have hnb : ∀ k, d.nb k = [] := by
      intro k
      by_contra e
      have := h.supp k e
      rw [hne] at this; simp at this
    have hemp : ∀ x y, (x, y) ∉ fills := by
      intro x y hf
      have := (h4 x y).mpr (Or.inr (Or.inl hf))
      cases this with
      | edge h5 => unfold Edge at h5; simp [hnb] at h5
      | fill b1 =>
        obtain ⟨p, q, hs, hq⟩ := b1
        have hm := (h3 x).mp (by rw [hs]; simp [hq])
        unfold Vertex at hm
        simp [hne, hnb] at hm
    refine ⟨fun x y hf => absurd hf (hemp x y), ?_⟩
    cases fills with
    | nil => exact List.nodup_nil
    | cons f fs => exact absurd (List.mem_cons_self) (hemp f.1 f.2)
  · obtain ⟨alpha, fills', h1, h2⟩ := ordering_done ⟨h.sorted, h.supp, fun k e => h.loopless k (Or.inl e)⟩ h.notIsolated hne
    rw [hr] at h1
    injection h1 with h1
    injection h1 with h1 h1'
    subst h1 h1'
    refine ⟨fun x y hf => ⟨(h2.off _ hf).1, (h2.off _ hf).2.1, ?_, ?_, ?_⟩, h2.once.imp (fun h => h.1)⟩
    · obtain ⟨p, a, q, e, e1, _⟩ := h2.need _ hf
      exact (h2.all x).mpr (by rw [e]; simp [e1])
    · obtain ⟨p, a, q, e, _, e1, _⟩ := h2.need _ hf
      exact (h2.all y).mpr (by rw [e]; simp [e1])
    · intro hf'
      have hxy := (h2.off _ hf).1
      obtain ⟨i, hi, e1⟩ := List.mem_iff_getElem.mp hf
      obtain ⟨j, hj, e2⟩ := List.mem_iff_getElem.mp hf'
      have hp := List.pairwise_iff_getElem.mp h2.once
      rcases Nat.lt_trichotomy i j with hij | rfl | hij
      · exact (hp i j hi hj hij).2 (by rw [e1, e2])
      · rw [e1] at e2
        injection e2 with e2 _
        exact hxy e2
      · exact (hp j i hj hi hij).2 (by rw [e1, e2])

/-- C13: with the fill-ins the pattern is closed: if a vertex has entries with two later ones, these have an entry with each other. This is what
the factorisation without further allocation needs. -/
theorem pattern_closed (d : Adj) (h : Graph d) {order : List Nat} {fills : List (Nat × Nat)}
    (hr : minimumDegreeOrdering d = some (order, fills)) {z x y : Nat} (hx : Before order z x) (hy : Before order z y) (hne : x ≠ y)
    (ex : Edge d z x ∨ (z, x) ∈ fills ∨ (x, z) ∈ fills) (ey : Edge d z y ∨ (z, y) ∈ fills ∨ (y, z) ∈ fills) :
    Edge d x y ∨ (x, y) ∈ fills ∨ (y, x) ∈ fills := by
  obtain ⟨o, f, h1, _, _, h4⟩ := ordering_correct d h
  rw [hr] at h1
  injection h1 with h1
  injection h1 with h1 h1'
  subst h1 h1'
  rw [← h4] at ex ey ⊢
  exact Entry.fill hx hy hne ex ey

/-- The example of the code's own test. -/
def exGraph : Adj where
  keys := [0, 1, 2, 3, 4, 5, 6, 8, 9]
  nb := fun k => ([[3, 5], [4, 5, 8], [4, 5, 6], [6, 7], [6, 8], [], [7, 8, 9], [], [7, 9], [7]].getD k [])

theorem exGraph_ok : Graph exGraph := by
  have big : ∀ k, 10 ≤ k → exGraph.nb k = [] := fun k hk => by
    show List.getD _ k _ = _
    rw [List.getD_eq_getElem?_getD, List.getElem?_eq_none (by simpa using hk)]
    rfl
  have hsupp : ∀ k < 10, exGraph.nb k ≠ [] → k ∈ exGraph.keys := by decide
  have hloop : ∀ k < 10, k ∉ exGraph.nb k := by decide
  have hiso : ∀ k ∈ exGraph.keys, ∃ e ∈ List.range 10, e ∈ exGraph.nb k ∨ k ∈ exGraph.nb e := by decide +kernel
  refine ⟨by decide, fun k hk => ?_, fun k hk => ?_, fun k hk => ?_⟩
  · by_cases h10 : k < 10
    · exact hsupp k h10 hk
    · exact absurd (big k (by omega)) hk
  · have hk' : k ∈ exGraph.nb k := by rcases hk with h | h <;> exact h
    by_cases h10 : k < 10
    · exact hloop k h10 hk'
    · rw [big k (by omega)] at hk'
      simp at hk'
  · obtain ⟨e, _, he⟩ := hiso k hk
    exact ⟨e, he⟩

example : minimumDegreeOrdering exGraph =
    some ([0, 1, 2, 3, 4, 5, 6, 7, 8, 9], [(3, 5), (4, 5), (5, 8), (5, 6), (5, 7)]) := by decide +kernel

/-- Two vertices without any edge: the function reads an empty list. -/
theorem isolated_undefined : minimumDegreeOrdering ⟨[0, 1], fun _ => []⟩ = none := by decide +kernel

/-- A vertex that is listed with itself: the function changes the list it goes through. -/
theorem loop_undefined : minimumDegreeOrdering ⟨[0, 1], fun k => if k = 0 then [0, 1] else []⟩ = none := by decide +kernel

end PGM.Ordering
