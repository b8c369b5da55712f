import Verif.Supernode.Lemmas
import Verif.Topology.Props

/-!
# Nodes joined by links are one node of the calculation (C32)
-/

namespace PGM.Supernode

open PGM.Topology

variable {A : Type} [AddGroup A]

theorem remapGrid_range {G : Grid A} (hG : G.Valid) : remapGrid ⟨G.nNode, List.range G.nNode⟩ G = G := by
  have hr : ∀ x : Nat, (List.range G.nNode)[x]?.getD x = x := by
    intro x
    by_cases hx : x < G.nNode
    · rw [List.getElem?_range hx]; rfl
    · rw [List.getElem?_eq_none (by simp; omega)]; rfl
  unfold remapGrid
  simp only [hr]
  obtain ⟨n, bs, b3, ss⟩ := G
  simp

theorem range_ok (n : Nat) : MappingOk n [] ⟨n, List.range n⟩ := by
  have hget : ∀ (x g : Nat), (List.range n)[x]? = some g → x = g := by
    intro x g h
    by_cases hx : x < n
    · rw [List.getElem?_range hx] at h
      injection h
    · rw [List.getElem?_eq_none (by simp; omega)] at h
      cases h
  refine ⟨by simp, by simp, by simp, fun x y g g' hx hy => ?_⟩
  have h1 := hget x g hx
  have h2 := hget y g' hy
  subst h1 h2
  constructor
  · rintro rfl; exact Relation.ReflTransGen.refl
  · intro h
    induction h with
    | refl => rfl
    | tail _ hs _ => obtain ⟨l, hl, _⟩ := hs; cases hl

/-- What a reduction gives. -/
structure ReducedOk (U : UserGrid A) (R : Reduced A) (m : Mapping) : Prop where
  map : MappingOk U.grid.nNode U.links m
  grid : R.grid = remapGrid m U.grid
  node : ∀ (x g p : Nat), x < U.grid.nNode → (R.nodeCoup[x]? = some (g, p) ↔ m.topo[x]? = some g ∧ (R.userNodes g)[p]? = some x)
  total : ∀ (x : Nat), x < U.grid.nNode → ∃ g p, R.nodeCoup[x]? = some (g, p)
  members : ∀ (g p x : Nat), g < m.nTopo → (R.userNodes g)[p]? = some x → x < U.grid.nNode ∧ R.nodeCoup[x]? = some (g, p)
  links : LinksOk m U.links (R.userLinks, R.linkCoup)

theorem reduce_ok {U : UserGrid A} (hU : U.Valid) : ∃ R m, reduceTopology U = some R ∧ ReducedOk U R m := by
  unfold reduceTopology
  by_cases hl : U.links = []
  · rw [if_pos hl]
    refine ⟨_, ⟨U.grid.nNode, List.range U.grid.nNode⟩, rfl, by rw [hl]; exact range_ok _, (remapGrid_range hU.grid).symm, fun x g p hx => ?_,
      fun x hx => ⟨x, 0, ?_⟩, fun g p x hg hp => ?_, ?_⟩
    · have hx' : x < U.grid.nTotal := by unfold Grid.nTotal; omega
      show ((List.range U.grid.nTotal).map fun x => (x, 0))[x]? = _ ↔ _
      rw [List.getElem?_map, List.getElem?_range hx', List.getElem?_range hx]
      simp only [Option.map_some, Option.some.injEq, Prod.mk.injEq]
      constructor
      · rintro ⟨rfl, rfl⟩
        refine ⟨rfl, ?_⟩
        show (if x < U.grid.nTotal then [x] else [])[0]? = _
        rw [if_pos hx']; rfl
      · rintro ⟨rfl, h⟩
        refine ⟨rfl, ?_⟩
        have h : (if x < U.grid.nTotal then [x] else [])[p]? = some x := h
        rw [if_pos hx'] at h
        by_contra hp
        rw [List.getElem?_eq_none (by simp; omega)] at h
        cases h
    · have hx' : x < U.grid.nTotal := by unfold Grid.nTotal; omega
      show ((List.range U.grid.nTotal).map fun x => (x, 0))[x]? = _
      rw [List.getElem?_map, List.getElem?_range hx']; rfl
    · have hg : g < U.grid.nNode := hg
      have hx' : g < U.grid.nTotal := by unfold Grid.nTotal; omega
      have h : (if g < U.grid.nTotal then [g] else [])[p]? = some x := hp
      rw [if_pos hx'] at h
      have hp0 : p = 0 := by
        by_contra hp
        rw [List.getElem?_eq_none (by simp; omega)] at h
        cases h
      subst hp0
      simp only [List.getElem?_cons_zero, Option.some.injEq] at h
      subst h
      refine ⟨hg, ?_⟩
      show ((List.range U.grid.nTotal).map fun x => (x, 0))[g]? = _
      rw [List.getElem?_map, List.getElem?_range hx']; rfl
    · rw [hl]
      exact ⟨rfl, by simp, by simp, fun g p hp => absurd hp (by simp [dontReduce])⟩
  · rw [if_neg hl]
    obtain ⟨m, h1, h2⟩ := findComponents_ok hU.link
    obtain ⟨s, h3, h4⟩ := coupleLinks_ok h2 hU.link
    have h5 := coupleNodes_ok m
    refine ⟨_, m, by rw [h1]; simp only [Option.bind_eq_bind, Option.bind_some]; rw [h3]; rfl, h2, rfl, fun x g p hx => ?_, fun x hx => ?_,
      fun g p x hg hp => ?_, h4⟩
    · exact ⟨fun h => h5.coup x g p h, fun h => h5.place g p x h.2⟩
    · have hlt : x < (coupleNodes m).2.length := by rw [h5.len, h2.length]; exact hx
      exact ⟨(coupleNodes m).2[x].1, (coupleNodes m).2[x].2, List.getElem?_eq_getElem hlt⟩
    · have := h5.place g p x hp
      refine ⟨?_, this⟩
      by_contra hn
      rw [List.getElem?_eq_none (by rw [h5.len, h2.length]; omega)] at this
      cases this

theorem reduced {U : UserGrid A} (hU : U.Valid) {R : Reduced A} (hR : reduceTopology U = some R) : ∃ m, ReducedOk U R m := by
  obtain ⟨R', m, h1, h2⟩ := reduce_ok hU
  rw [hR] at h1
  injection h1 with h1
  subst h1
  exact ⟨m, h2⟩

/-- **C32: the reduction always succeeds**: the assertions in it hold. -/
theorem reduce_total {U : UserGrid A} (hU : U.Valid) : ∃ R, reduceTopology U = some R := by
  obtain ⟨R, m, h, _⟩ := reduce_ok hU
  exact ⟨R, h⟩

/-- **C32: two nodes are in the same supernode exactly if a chain of closed links joins them.** -/
theorem supernode_iff {U : UserGrid A} (hU : U.Valid) {R : Reduced A} (hR : reduceTopology U = some R) {x y g p g' p' : Nat}
    (hx : x < U.grid.nNode) (hy : y < U.grid.nNode) (hxc : R.nodeCoup[x]? = some (g, p)) (hyc : R.nodeCoup[y]? = some (g', p')) :
    g = g' ↔ Chain U.links x y := by
  obtain ⟨m, h⟩ := reduced hU hR
  exact h.map.same x y g g' ((h.node x g p hx).mp hxc).1 ((h.node y g' p' hy).mp hyc).1

/-- **C32: every node has exactly one place in one supernode, and every supernode has a node**: the supernodes are numbered without gaps, and
the place of a node leads to the node and back. -/
theorem supernode_places {U : UserGrid A} (hU : U.Valid) {R : Reduced A} (hR : reduceTopology U = some R) :
    (∀ x, x < U.grid.nNode → ∃ g p, R.nodeCoup[x]? = some (g, p) ∧ g < R.grid.nNode ∧ (R.userNodes g)[p]? = some x) ∧
    (∀ g p x : Nat, g < R.grid.nNode → (R.userNodes g)[p]? = some x → x < U.grid.nNode ∧ R.nodeCoup[x]? = some (g, p)) ∧
    ∀ g, g < R.grid.nNode → R.userNodes g ≠ [] := by
  obtain ⟨m, h⟩ := reduced hU hR
  have hn : R.grid.nNode = m.nTopo := by rw [h.grid]; rfl
  refine ⟨fun x hx => ?_, fun g p x hg hp => h.members g p x (by omega) hp, fun g hg he => ?_⟩
  · obtain ⟨g, p, e⟩ := h.total x hx
    obtain ⟨e1, e2⟩ := (h.node x g p hx).mp e
    exact ⟨g, p, e, hn ▸ h.map.range g (List.mem_of_getElem? e1), e2⟩
  · obtain ⟨x, hx⟩ := List.mem_iff_getElem?.mp (h.map.used g (by omega))
    have hxn : x < U.grid.nNode := by
      by_contra hxn
      rw [List.getElem?_eq_none (by rw [h.map.length]; omega)] at hx
      cases hx
    obtain ⟨g', p, e⟩ := h.total x hxn
    obtain ⟨e1, e2⟩ := (h.node x g' p hxn).mp e
    rw [hx] at e1
    injection e1 with e1
    subst e1
    rw [he] at e2
    cases e2

/-- **C32: a link belongs to the supernode of the nodes it is connected to.** A link that is open at both sides belongs to none. The record of a
link in its supernode has the node at each connected side and nothing at an open side; no other link has the same place. -/
theorem links_coupled {U : UserGrid A} (hU : U.Valid) {R : Reduced A} (hR : reduceTopology U = some R) (hl : U.links ≠ []) :
    R.linkCoup.length = U.links.length ∧
    (∀ (k : Nat) l, U.links[k]? = some l → (R.linkCoup[k]? = some none ↔ l.fromConn = false ∧ l.toConn = false)) ∧
    (∀ (k : Nat) l g p, U.links[k]? = some l → R.linkCoup[k]? = some (some (g, p)) →
      (l.fromConn = true → ∃ q, R.nodeCoup[l.from_]? = some (g, q)) ∧ (l.toConn = true → ∃ q, R.nodeCoup[l.to]? = some (g, q)) ∧
      (R.userLinks g)[p]? = some (if l.fromConn then some l.from_ else none, if l.toConn then some l.to else none)) ∧
    ∀ (g p : Nat), p < (R.userLinks g).length → ∃ k : Nat, R.linkCoup[k]? = some (some (g, p)) ∧
      ∀ k' : Nat, R.linkCoup[k']? = some (some (g, p)) → k' = k := by
  obtain ⟨m, h⟩ := reduced hU hR
  refine ⟨h.links.len, h.links.off, fun k l g p hk hv => ?_, h.links.place⟩
  obtain ⟨a1, a2, a3⟩ := h.links.on k l g p hk hv
  have hr := hU.link l (List.mem_of_getElem? hk)
  have key : ∀ x, x < U.grid.nNode → m.topo[x]? = some g → ∃ q, R.nodeCoup[x]? = some (g, q) := by
    intro x hx e
    obtain ⟨g', q, e'⟩ := h.total x hx
    obtain ⟨e1, _⟩ := (h.node x g' q hx).mp e'
    rw [e] at e1
    injection e1 with e1
    subst e1
    exact ⟨q, e'⟩
  exact ⟨fun hc => key _ hr.1 (a1 hc), fun hc => key _ hr.2 (a2 hc), a3⟩

/-- **C32: the reduced grid can be calculated**: it refers to existing nodes only, and has the same branches and sources with the same
states. -/
theorem reduced_valid {U : UserGrid A} (hU : U.Valid) {R : Reduced A} (hR : reduceTopology U = some R) : R.grid.Valid ∧
    (∀ (k : Nat) b, U.grid.branches[k]? = some b → ∃ b' p q, R.grid.branches[k]? = some b' ∧ R.nodeCoup[b.i]? = some (b'.i, p) ∧
      R.nodeCoup[b.j]? = some (b'.j, q) ∧ b'.iConn = b.iConn ∧ b'.jConn = b.jConn ∧ b'.shift = b.shift) ∧
    (∀ (k : Nat) b, U.grid.branch3s[k]? = some b → ∃ b', R.grid.branch3s[k]? = some b' ∧ b'.conn = b.conn ∧ b'.shift = b.shift ∧
      ∀ j, ∃ p, R.nodeCoup[b.node j]? = some (b'.node j, p)) ∧
    (∀ (k : Nat) s, U.grid.sources[k]? = some s → ∃ g p, R.grid.sources[k]? = some (g, s.2) ∧ R.nodeCoup[s.1]? = some (g, p)) ∧
    R.grid.branches.length = U.grid.branches.length ∧ R.grid.branch3s.length = U.grid.branch3s.length ∧
    R.grid.sources.length = U.grid.sources.length := by
  obtain ⟨m, h⟩ := reduced hU hR
  have key : ∀ x, x < U.grid.nNode → ∃ q, R.nodeCoup[x]? = some (m.topo[x]?.getD x, q) := by
    intro x hx
    obtain ⟨g', q, e'⟩ := h.total x hx
    obtain ⟨e1, _⟩ := (h.node x g' q hx).mp e'
    rw [e1]
    exact ⟨q, e'⟩
  refine ⟨by rw [h.grid]; exact remap_valid hU.grid h.map, fun k b hb => ?_, fun k b hb => ?_, fun k s hs => ?_, ?_, ?_, ?_⟩
  · have := hU.grid.branch b (List.mem_of_getElem? hb)
    obtain ⟨p, hp⟩ := key _ this.1
    obtain ⟨q, hq⟩ := key _ this.2
    refine ⟨{ b with i := m.topo[b.i]?.getD b.i, j := m.topo[b.j]?.getD b.j }, p, q, ?_, hp, hq, rfl, rfl, rfl⟩
    rw [h.grid]
    show (U.grid.branches.map _)[k]? = _
    rw [List.getElem?_map, hb]; rfl
  · have := hU.grid.branch3 b (List.mem_of_getElem? hb)
    refine ⟨{ b with node := fun k => m.topo[b.node k]?.getD (b.node k) }, ?_, rfl, rfl, fun j => key _ (this j)⟩
    rw [h.grid]
    show (U.grid.branch3s.map _)[k]? = _
    rw [List.getElem?_map, hb]; rfl
  · have := hU.grid.source s (List.mem_of_getElem? hs)
    obtain ⟨p, hp⟩ := key _ this
    refine ⟨_, p, ?_, hp⟩
    rw [h.grid]
    show (U.grid.sources.map _)[k]? = _
    rw [List.getElem?_map, hs]; rfl
  · rw [h.grid]; simp [remapGrid]
  · rw [h.grid]; simp [remapGrid]
  · rw [h.grid]; simp [remapGrid]

/-- **C32 and C12: a node of the grid with links takes part in the calculation exactly if it is energised**: there is a way of closed branches
and closed links to it from a connected source. -/
theorem user_energised_iff {U : UserGrid A} (hU : U.Valid) {R : Reduced A} (hR : reduceTopology U = some R) {s : State A} {c : Coupled}
    (hb : build R.grid = some (s, c)) {x g p : Nat} (hx : x < U.grid.nNode) (hxc : R.nodeCoup[x]? = some (g, p)) :
    s.node g ≠ none ↔ UserEnergised U x := by
  obtain ⟨m, h⟩ := reduced hU hR
  rw [energised_iff (reduced_valid hU hR).1 hb]
  have e1 := ((h.node x g p hx).mp hxc).1
  have hg : g = target m U.grid.nNode x := by
    have := (target_lt h.map hx).1
    rw [e1] at this
    injection this
  unfold Energised UserEnergised
  rw [h.grid, hg]
  constructor
  · rintro ⟨s', hs', hc, hr⟩
    obtain ⟨s0, h0, rfl⟩ := List.mem_map.mp hs'
    refine ⟨s0, h0, hc, ?_⟩
    have hr : Reach _ (m.topo[s0.1]?.getD s0.1) _ := hr
    rw [(target_lt h.map (hU.grid.source s0 h0)).2.2] at hr
    exact (reach_target hU h.map _ _).mp hr
  · rintro ⟨s0, h0, hc, hr⟩
    refine ⟨(m.topo[s0.1]?.getD s0.1, s0.2), List.mem_map.mpr ⟨s0, h0, rfl⟩, hc, ?_⟩
    show Reach _ (m.topo[s0.1]?.getD s0.1) _
    rw [(target_lt h.map (hU.grid.source s0 h0)).2.2]
    exact (reach_target hU h.map _ _).mpr hr

/-- **C32 and C12: two nodes of the grid with links are calculated together exactly if there is a way of closed branches and closed links
between them.** -/
theorem user_same_island_iff {U : UserGrid A} (hU : U.Valid) {R : Reduced A} (hR : reduceTopology U = some R) {s : State A} {c : Coupled}
    (hb : build R.grid = some (s, c)) {x y g g' p p' i j i' j' : Nat} (hx : x < U.grid.nNode) (hy : y < U.grid.nNode)
    (hxc : R.nodeCoup[x]? = some (g, p)) (hyc : R.nodeCoup[y]? = some (g', p')) (hi : s.node g = some (i, j)) (hi' : s.node g' = some (i', j')) :
    (i = i' ↔ UserReach U x y) ∧ ((i, j) = (i', j') ↔ Chain U.links x y) := by
  have hv := (reduced_valid hU hR).1
  have hsup := supernode_iff hU hR hx hy hxc hyc
  obtain ⟨m, h⟩ := reduced hU hR
  have hg : g = target m U.grid.nNode x := by
    have := (target_lt h.map hx).1
    rw [((h.node x g p hx).mp hxc).1] at this
    injection this
  have hg' : g' = target m U.grid.nNode y := by
    have := (target_lt h.map hy).1
    rw [((h.node y g' p' hy).mp hyc).1] at this
    injection this
  constructor
  · rw [same_island_iff hv hb hi hi', h.grid, hg, hg']
    exact reach_target hU h.map _ _
  · rw [← hsup]
    constructor
    · intro e
      rw [← e] at hi'
      obtain ⟨n1, n2, _⟩ := numbering hv hb
      obtain ⟨b1, b2, b3⟩ := n1 g i j hi
      obtain ⟨z, _, hz⟩ := n2 i j b2 b3
      rw [hz g hi, hz g' hi']
    · rintro rfl
      rw [hi] at hi'
      injection hi'

/-! ## An example

Five nodes; links 0-1 and 1-2 are closed, link 2-3 is open at one side and link 3-4 at both. A branch joins nodes 2 and 4, and the source is at
node 0. Nodes 0, 1 and 2 are one supernode; node 4 is energised and node 3 is not. -/

/-- The grid of the example. -/
def exUser : UserGrid Int :=
  ⟨⟨5, [⟨2, 4, true, true, 1⟩, ⟨0, 1, true, true, 0⟩], [], [(0, true)]⟩,
    [⟨0, 1, true, true⟩, ⟨2, 1, true, true⟩, ⟨2, 3, true, false⟩, ⟨3, 4, false, false⟩]⟩

example : exUser.Valid := by
  refine ⟨⟨?_, ?_, ?_⟩, ?_⟩ <;> decide

example : (reduceTopology exUser).map (fun R => (R.nodeCoup, R.linkCoup)) =
    some ([(0, 0), (0, 1), (0, 2), (1, 0), (2, 0)], [some (0, 0), some (0, 1), some (0, 2), none]) := by decide +kernel

example : ((reduceTopology exUser).bind fun R => (build R.grid).map fun r => [r.1.node 0, r.1.node 1, r.1.node 2]) =
    some [some (0, 1), none, some (0, 0)] := by decide +kernel

end PGM.Supernode
