import Verif.Topology.Coupling
import Verif.Topology.Objects
import Verif.PowerFlow.EndToEnd

/-!
# Which parts of the grid are calculated, and as what (C12)

The specification is in `Verif.Topology.Spec`. `State.node s x = some (g, p)` says that node `x` is bus `p` of island `g`.
-/

namespace PGM.Topology

variable {A : Type} [AddGroup A]

/-- The number of buses of an island. -/
def buses (s : State A) (g : Nat) : Nat := (s.islands[g]?.map (·.phaseShift.length)).getD 0

theorem build_ok {G : Grid A} (h : G.Valid) : ∃ s c, build G = some (s, c) ∧ LoopInv (edges G) G.sources s ∧
    CInv G s G.branches (G.branch3s.zipIdx.map fun b => (b.1, G.nNode + b.2)) c := by
  obtain ⟨s, h1, h2⟩ := dfs_ok h
  obtain ⟨c, h3, h4⟩ := coupleBranch_ok h h2
  refine ⟨s, c, ?_, h2, h4⟩
  unfold build
  rw [h1]
  simp only [Option.bind_eq_bind, Option.bind_some]
  rw [h3]
  rfl

theorem build_inv {G : Grid A} (h : G.Valid) {s : State A} {c : Coupled} (hb : build G = some (s, c)) : LoopInv (edges G) G.sources s ∧
    CInv G s G.branches (G.branch3s.zipIdx.map fun b => (b.1, G.nNode + b.2)) c := by
  obtain ⟨s', c', h1, h2⟩ := build_ok h
  rw [hb] at h1
  injection h1 with h1
  injection h1 with h1 h1'
  subst h1 h1'
  exact h2

theorem node_some {G : Grid A} {s : State A} (hs : LoopInv (edges G) G.sources s) {x g p : Nat} (hx : s.node x = some (g, p)) :
    ∃ I root order, s.islands[g]? = some I ∧ (root, true) ∈ G.sources ∧ IslandOk (edges G) s g I root order ∧ x ∈ order ∧ p = order.idxOf x := by
  have hg : s.visit.group x = some g := by rw [← node_group hs, hx]; rfl
  obtain ⟨I, root, order, h1, h2, h3, h4, h5⟩ := node_of_group hs hg
  rw [hx] at h5
  simp only [Option.some.injEq, Prod.mk.injEq, true_and] at h5
  exact ⟨I, root, order, h1, h2, h3, h4, h5⟩

theorem node_of_order {G : Grid A} {s : State A} {g : Nat} {I : Island A} {root : Nat} {order : List Nat}
    (h : IslandOk (edges G) s g I root order) {x : Nat} (hx : x ∈ order) : s.node x = some (g, order.idxOf x) := by
  unfold State.node
  rw [(h.mem x).mp hx, h.pos x hx]
  rfl

theorem reach_back {E : List (Edge A)} {n : Nat} (hE : Undirected E n) {x y : Nat} (h : Relation.ReflTransGen (Step E) x y) :
    Relation.ReflTransGen (Step E) y x := by
  induction h with
  | refl => exact Relation.ReflTransGen.refl
  | tail _ hs ih => exact Relation.ReflTransGen.head (hs.symm hE.toBidirected) ih

theorem island_unique {E : List (Edge A)} {s : State A} {g : Nat} {I : Island A} {root root' : Nat} {order order' : List Nat}
    (h : IslandOk E s g I root order) (h' : IslandOk E s g I root' order') {x : Nat} : order.idxOf x = order'.idxOf x ∨ x ∉ order := by
  by_cases hx : x ∈ order
  · left
    have h1 := h.pos x hx
    have h2 := h'.pos x ((h'.mem x).mpr ((h.mem x).mp hx))
    rw [h1] at h2
    injection h2
  · exact Or.inr hx

theorem island_buses {s : State A} {E : List (Edge A)} {g : Nat} {I : Island A} {root : Nat} {order : List Nat} (hI : s.islands[g]? = some I)
    (h : IslandOk E s g I root order) : buses s g = order.length := by
  unfold buses
  rw [hI]
  show I.phaseShift.length = _
  rw [h.shift, List.length_map]

/-! ## Nodes -/

/-- **C12: building the topology always succeeds**: no loop runs on, no assertion fails. -/
theorem build_total {G : Grid A} (h : G.Valid) : ∃ s c, build G = some (s, c) := by
  obtain ⟨s, c, h1, _⟩ := build_ok h
  exact ⟨s, c, h1⟩

/-- **C12: a node takes part in the calculation exactly if it is energised**, that is, if there is a way of closed branches from a connected
source to it. -/
theorem energised_iff {G : Grid A} (h : G.Valid) {s : State A} {c : Coupled} (hb : build G = some (s, c)) (x : Nat) :
    s.node x ≠ none ↔ Energised G x := by
  obtain ⟨hs, _⟩ := build_inv h hb
  rw [energised_group h hs, ← node_group hs]
  cases s.node x <;> simp

/-- **C12: two nodes are in the same island exactly if there is a way between them.** -/
theorem same_island_iff {G : Grid A} (h : G.Valid) {s : State A} {c : Coupled} (hb : build G = some (s, c)) {x y g p g' p' : Nat}
    (hx : s.node x = some (g, p)) (hy : s.node y = some (g', p')) : g = g' ↔ Reach G x y := by
  obtain ⟨hs, _⟩ := build_inv h hb
  obtain ⟨I, root, order, h1, _, h3, h4, _⟩ := node_some hs hx
  have hgy : s.visit.group y = some g' := by rw [← node_group hs, hy]; rfl
  have hgx : s.visit.group x = some g := by rw [← node_group hs, hx]; rfl
  constructor
  · rintro rfl
    have hyo := (h3.mem y).mpr hgy
    have r1 := (h3.reach x).mp h4
    have r2 := (h3.reach y).mp hyo
    rw [reach_iff h]
    have back := reach_back (edges_undirected h) r1
    exact back.trans r2
  · intro hr
    have : ∀ z, Reach G x z → s.visit.group z = some g := by
      intro z hz
      induction hz with
      | refl => exact hgx
      | tail _ hl ih => rw [← linked_group h hs hl]; exact ih
    have hgy' := this y hr
    rw [hgy] at hgy'
    injection hgy' with e
    exact e.symm

/-- **C12: the buses of an island are numbered without gaps**: every number stands for exactly one node. -/
theorem numbering {G : Grid A} (h : G.Valid) {s : State A} {c : Coupled} (hb : build G = some (s, c)) :
    (∀ x g p, s.node x = some (g, p) → x < G.nTotal ∧ g < s.islands.length ∧ p < buses s g) ∧
    (∀ g p, g < s.islands.length → p < buses s g → ∃ x, s.node x = some (g, p) ∧ ∀ y, s.node y = some (g, p) → y = x) ∧
    ∀ g, g < s.islands.length → 0 < buses s g := by
  obtain ⟨hs, _⟩ := build_inv h hb
  have hE := edges_undirected h
  refine ⟨fun x g p hx => ?_, fun g p hg hp => ?_, fun g hg => ?_⟩
  · obtain ⟨I, root, order, h1, h2, h3, h4, h5⟩ := node_some hs hx
    have hgx : s.visit.group x = some g := by rw [← node_group hs, hx]; rfl
    refine ⟨?_, hs.range x g hgx, ?_⟩
    · rcases Relation.ReflTransGen.cases_tail ((h3.reach x).mp h4) with e | ⟨y, _, e, he, _, e2⟩
      · have := h.source _ h2
        simp only at this
        unfold Grid.nTotal; omega
      · rw [← e2]; exact (hE.range e he).2
    · rw [island_buses h1 h3, h5]
      exact List.idxOf_lt_length_of_mem h4
  · obtain ⟨root, order, _, h3⟩ := hs.islands g _ (List.getElem?_eq_getElem hg)
    rw [island_buses (List.getElem?_eq_getElem hg) h3] at hp
    have hmem := List.getElem_mem hp
    have hidx : order.idxOf order[p] = p := h3.ordered.nodup.idxOf_getElem p hp
    refine ⟨order[p], by rw [node_of_order h3 hmem, hidx], fun y hy => ?_⟩
    have hgy : s.visit.group y = some g := by rw [← node_group hs, hy]; rfl
    have hyo := (h3.mem y).mpr hgy
    rw [node_of_order h3 hyo] at hy
    simp only [Option.some.injEq, Prod.mk.injEq, true_and] at hy
    exact idxOf_inj hyo (hy.trans hidx.symm)
  · obtain ⟨root, order, _, h3⟩ := hs.islands g _ (List.getElem?_eq_getElem hg)
    rw [island_buses (List.getElem?_eq_getElem hg) h3]
    exact List.length_pos_of_mem h3.rootIn

/-- **C12: the slack bus of an island is the bus of a connected source.** -/
theorem slack_source {G : Grid A} (h : G.Valid) {s : State A} {c : Coupled} (hb : build G = some (s, c)) {g : Nat} {I : Island A}
    (hI : s.islands[g]? = some I) : ∃ n, (n, true) ∈ G.sources ∧ s.node n = some (g, I.slack) := by
  obtain ⟨hs, _⟩ := build_inv h hb
  obtain ⟨root, order, h2, h3⟩ := hs.islands g I hI
  exact ⟨root, h2, by rw [node_of_order h3 h3.rootIn, h3.slack]⟩

theorem eway_way {G : Grid A} {x y : Nat} {a : A} (h : EWay (edges G) x y a) : Way G x y a := by
  induction h with
  | refl => exact Way.refl _
  | step _ he ih => exact Way.step ih (edge_link he)

/-- **C12: the phase shift of a bus is the sum of the phase shifts on a way from the slack bus.** -/
theorem phase_shift {G : Grid A} (h : G.Valid) {s : State A} {c : Coupled} (hb : build G = some (s, c)) {x g p : Nat} {I : Island A}
    (hx : s.node x = some (g, p)) (hI : s.islands[g]? = some I) :
    ∃ n a, s.node n = some (g, I.slack) ∧ I.phaseShift[p]? = some a ∧ Way G n x a := by
  obtain ⟨hs, _⟩ := build_inv h hb
  obtain ⟨I', root, order, h1, h2, h3, h4, h5⟩ := node_some hs hx
  rw [hI] at h1
  injection h1 with h1
  subst h1
  refine ⟨root, s.visit.shift x, by rw [node_of_order h3 h3.rootIn, h3.slack], ?_, eway_way (h3.walk x h4)⟩
  have hp : p < order.length := by rw [h5]; exact List.idxOf_lt_length_of_mem h4
  rw [h3.shift, List.getElem?_map, List.getElem?_eq_getElem hp]
  have : order[p] = x := by
    simp only [h5]
    exact List.getElem_idxOf _
  rw [this]
  rfl

/-- **C12: where the phase shifts are consistent** (the sum does not depend on the way), **the phase shift of a bus is its angle relative to the
slack bus.** -/
theorem phase_shift_consistent {G : Grid A} (h : G.Valid) {s : State A} {c : Coupled} (hb : build G = some (s, c)) {x g p : Nat} {I : Island A}
    (hx : s.node x = some (g, p)) (hI : s.islands[g]? = some I) (θ : Nat → A) (hθ : ∀ y z a, Link G y z a → θ z = θ y + a) :
    ∃ n, s.node n = some (g, I.slack) ∧ I.phaseShift[p]? = some (-θ n + θ x) := by
  obtain ⟨n, a, h1, h2, h3⟩ := phase_shift h hb hx hI
  refine ⟨n, h1, ?_⟩
  rw [h2]
  have : ∀ {x y a}, Way G x y a → θ y = θ x + a := by
    intro x y a hw
    induction hw with
    | refl => exact (add_zero _).symm
    | step _ hl ih => rw [hθ _ _ _ hl, ih, add_assoc]
  rw [this h3, neg_add_cancel_left]

/-- **C12: an island is called radial exactly if it has no cycle** (parallel branches do not count as one). -/
theorem radial_iff {G : Grid A} (h : G.Valid) {s : State A} {c : Coupled} (hb : build G = some (s, c)) {g : Nat} {I : Island A}
    (hI : s.islands[g]? = some I) : I.radial = true ↔ ¬∃ x y p, s.node x = some (g, p) ∧ OnCycle G x y := by
  obtain ⟨hs, _⟩ := build_inv h hb
  obtain ⟨root, order, h2, h3⟩ := hs.islands g I hI
  rw [h3.radial, not_iff_not]
  constructor
  · rintro ⟨x, hx, y, hc⟩
    exact ⟨x, y, _, node_of_order h3 hx, (cyc_iff h x y).mpr hc⟩
  · rintro ⟨x, y, p, hx, hc⟩
    exact ⟨x, (h3.mem x).mpr (by rw [← node_group hs, hx]; rfl), y, (cyc_iff h x y).mp hc⟩

/-! ## Branches -/

/-- **C12: branches.** A branch is calculated exactly if one of its closed sides is at an energised node. It is then a branch of the island of that
node; its closed sides are at the buses of their nodes, its open side is at no bus. -/
theorem branches_coupled {G : Grid A} (h : G.Valid) {s : State A} {c : Coupled} (hb : build G = some (s, c)) {k : Nat} {b : Branch A}
    (hk : G.branches[k]? = some b) :
    (c.branch[k]? = some none ∧ ¬(b.iConn = true ∧ Energised G b.i) ∧ ¬(b.jConn = true ∧ Energised G b.j)) ∨
    (∃ g p f t, c.branch[k]? = some (some (g, p)) ∧ (c.branchBus g)[p]? = some (f, t) ∧ SideOk s g b.iConn b.i f ∧ SideOk s g b.jConn b.j t ∧
      ((b.iConn = true ∧ Energised G b.i) ∨ (b.jConn = true ∧ Energised G b.j))) := by
  obtain ⟨hs, hc⟩ := build_inv h hb
  have hlt : k < c.branch.length := by
    rw [hc.len]
    by_contra hn
    rw [List.getElem?_eq_none (by omega)] at hk
    cases hk
  have hget := List.getElem?_eq_getElem hlt
  have hiff := branchGroup_none hs b
  cases hv : c.branch[k] with
  | none =>
    left
    rw [hv] at hget
    have := hiff.mp ((hc.off k b hk).mp hget)
    rw [energised_group h hs, energised_group h hs]
    exact ⟨hget, this.1, this.2⟩
  | some v =>
    right
    rw [hv] at hget
    obtain ⟨f, t, h1, h2, h3, h4⟩ := hc.on k b v.1 v.2 hk hget
    refine ⟨v.1, v.2, f, t, hget, h1, h2, h3, ?_⟩
    rw [energised_group h hs, energised_group h hs]
    by_contra hn
    rw [not_or] at hn
    rw [hiff.mpr hn] at h4
    cases h4

/-- **C12: branches with three sides.** Such a branch is calculated exactly if one of its closed sides is at an energised node. It is then three
branches of an island: each goes from the bus of its node, or from nowhere if that side is open, to the bus of the internal node. -/
theorem branch3s_coupled {G : Grid A} (h : G.Valid) {s : State A} {c : Coupled} (hb : build G = some (s, c)) {k : Nat} {b : Branch3 A}
    (hk : G.branch3s[k]? = some b) :
    (c.branch3[k]? = some none ∧ (∀ m, ¬(b.conn m = true ∧ Energised G (b.node m))) ∧ ¬Energised G (G.nNode + k)) ∨
    (∃ g q pj, c.branch3[k]? = some (some (g, q)) ∧ s.node (G.nNode + k) = some (g, pj) ∧ (∃ m, b.conn m = true ∧ Energised G (b.node m)) ∧
      ∀ m, ∃ f, (c.branchBus g)[q m]? = some (f, some pj) ∧ SideOk s g (b.conn m) (b.node m) f) := by
  obtain ⟨hs, hc⟩ := build_inv h hb
  have hk3 : (G.branch3s.zipIdx.map fun b => (b.1, G.nNode + b.2))[k]? = some (b, G.nNode + k) := by
    rw [List.getElem?_map, List.getElem?_zipIdx, hk]
    simp
  have hlt : k < c.branch3.length := by
    rw [hc.len3]
    by_contra hn
    rw [List.getElem?_eq_none (by omega)] at hk3
    cases hk3
  have hget := List.getElem?_eq_getElem hlt
  have hiff := branch3Group_none hs b
  have hen : ∀ x, Energised G x ↔ s.visit.group x ≠ none := energised_group h hs
  cases hv : c.branch3[k] with
  | none =>
    left
    rw [hv] at hget
    have hno := hiff.mp ((hc.off3 k _ hk3).mp hget)
    refine ⟨hget, fun m => ?_, ?_⟩
    · rw [hen]; exact hno m
    · rw [hen]
      intro hne
      obtain ⟨g, hg⟩ := Option.ne_none_iff_exists'.mp hne
      obtain ⟨m, h1, h2⟩ := inner_group h hs hk hg
      exact hno m ⟨h1, by rw [h2]; simp⟩
  | some v =>
    right
    rw [hv] at hget
    obtain ⟨pj, h1, h2⟩ := hc.on3 k _ v.1 v.2 hk3 hget
    refine ⟨v.1, v.2, pj, hget, h1, ?_, h2⟩
    by_contra hn
    push Not at hn
    have : branch3Group b (fun n => s.node (b.node n)) = none := by
      rw [hiff]
      rintro m ⟨h3, h4⟩
      exact hn m h3 ((hen _).mpr h4)
    rw [(hc.off3 k _ hk3).mpr this] at hget
    cases hget

/-- **C12: every branch of an island stands for exactly one branch or one side of a branch with three sides.** -/
theorem branch_slots {G : Grid A} (h : G.Valid) {s : State A} {c : Coupled} (hb : build G = some (s, c)) (g p : Nat) :
    p < (c.branchBus g).length ↔ ∃ a, Slot c g p a ∧ ∀ a', Slot c g p a' → a' = a := by
  obtain ⟨_, hc⟩ := build_inv h hb
  rw [← hc.slot]
  constructor
  · rintro ⟨a, ha⟩
    exact ⟨a, ha, fun a' ha' => hc.unique g p a' a ha' ha⟩
  · rintro ⟨a, ha, _⟩
    exact ⟨a, ha⟩

/-! ## Appliances and sensors -/

/-- **C12: appliances.** An appliance (shunt, load, generator, source) that is included is calculated exactly if its node is energised, at the bus
of its node; every position of an island stands for exactly one appliance. -/
theorem appliances_coupled {G : Grid A} (h : G.Valid) {s : State A} {c : Coupled} (hb : build G = some (s, c))
    (criterion : Nat → Nat → Bool) (node : List Nat) (include_ : Nat → Bool) :
    ∃ dense coup, coupleAppliances criterion s node include_ = some (dense, coup) ∧
      (∀ (i x : Nat), node[i]? = some x → (coup i ≠ none ↔ include_ i = true ∧ Energised G x)) ∧
      (∀ (i x g p : Nat), node[i]? = some x → coup i = some (g, p) → ∃ o, s.node x = some (g, o) ∧ (dense g)[p]? = some o) ∧
      ∀ g p, g < s.islands.length → p < (dense g).length →
        ∃ i, i < node.length ∧ coup i = some (g, p) ∧ ∀ i', i' < node.length → coup i' = some (g, p) → i' = i := by
  obtain ⟨hs, _⟩ := build_inv h hb
  obtain ⟨hnum, _⟩ := numbering h hb
  have hrange : ∀ (i g o : Nat), (fun i : Nat => node[i]?.bind s.node) i = some (g, o) → g < s.islands.length ∧ o < buses s g := by
    intro i g o hf
    cases hn : node[i]? with
    | none => simp only [hn] at hf; cases hf
    | some x =>
      simp only [hn, Option.bind_some] at hf
      exact (hnum x g o hf).2
  obtain ⟨r, h1, h2⟩ := objects_ok criterion (fun i : Nat => node[i]?.bind s.node) include_ node.length s.islands.length (buses s)
    (fun i g o hf => (hrange i g o hf).2) (fun _ => none)
  have hsome : ∀ (i x g p : Nat), node[i]? = some x → r.2 i = some (g, p) → include_ i = true ∧ ∃ o, s.node x = some (g, o) ∧ (r.1 g)[p]? = some o := by
    intro i x g p hx hc
    have hil : i < node.length := by
      by_contra hn
      rw [List.getElem?_eq_none (by omega)] at hx
      cases hx
    have hcond : i < node.length ∧ include_ i = true ∧ ∃ g o, (fun i : Nat => node[i]?.bind s.node) i = some (g, o) ∧ g < s.islands.length := by
      by_contra hn
      rw [h2.other i hn] at hc
      cases hc
    obtain ⟨_, k1, g', o, k2, k3⟩ := hcond
    obtain ⟨p', k4, k5⟩ := h2.found i g' o hil k1 k2 k3
    rw [hc] at k4
    simp only [Option.some.injEq, Prod.mk.injEq] at k4
    rw [← k4.1, ← k4.2] at k5
    rw [← k4.1] at k2
    simp only [hx, Option.bind_some] at k2
    exact ⟨k1, o, k2, k5⟩
  refine ⟨r.1, r.2, h1, fun i x hx => ?_, fun i x g p hx hc => (hsome i x g p hx hc).2, fun g p hg hp => ?_⟩
  · have hil : i < node.length := by
      by_contra hn
      rw [List.getElem?_eq_none (by omega)] at hx
      cases hx
    rw [← energised_iff h hb]
    constructor
    · intro hne
      obtain ⟨v, hv⟩ := Option.ne_none_iff_exists'.mp hne
      obtain ⟨k1, o, k2, _⟩ := hsome i x v.1 v.2 hx hv
      exact ⟨k1, by rw [k2]; simp⟩
    · rintro ⟨k1, k2⟩
      obtain ⟨v, hv⟩ := Option.ne_none_iff_exists'.mp k2
      have hf : (fun i : Nat => node[i]?.bind s.node) i = some (v.1, v.2) := by simp only [hx, Option.bind_some]; exact hv
      obtain ⟨p', k4, _⟩ := h2.found i v.1 v.2 hil k1 hf (hrange i _ _ hf).1
      rw [k4]; simp
  · obtain ⟨i, ⟨k1, k2, k3, o, k4⟩, k5⟩ := h2.unique g p hg hp
    refine ⟨i, k1, k3, fun i' k6 k7 => ?_⟩
    obtain ⟨e1, o', e2, _⟩ := hsome i' _ g p (List.getElem?_eq_getElem k6) k7
    refine k5 i' k6 e1 ⟨o', ?_⟩ k7
    simp only [List.getElem?_eq_getElem k6, Option.bind_some]
    exact e2

/-- **C12: sensors and regulators** are coupled to whatever their object is coupled to, in whichever of several passes their kind is handled: a pass
changes nothing for components of another kind, and couples a component of its kind exactly if its object is coupled. -/
theorem components_coupled (criterion : Nat → Nat → Bool) (find : Nat → Option (Nat × Nat)) (include_ : Nat → Bool) (n nIsland : Nat)
    (nObj : Nat → Nat) (hr : ∀ i g o, find i = some (g, o) → g < nIsland ∧ o < nObj g) (coupling : Nat → Option (Nat × Nat)) :
    ∃ dense coup, coupleObjects criterion find include_ n nIsland nObj coupling = some (dense, coup) ∧
      (∀ i, i < n → include_ i = true → ∀ g o, find i = some (g, o) → ∃ p, coup i = some (g, p) ∧ (dense g)[p]? = some o) ∧
      (∀ i, i < n → include_ i = true → find i = none → coup i = coupling i) ∧
      (∀ i, ¬(i < n ∧ include_ i = true) → coup i = coupling i) ∧
      ∀ g p, g < nIsland → p < (dense g).length → ∃ i, i < n ∧ include_ i = true ∧ coup i = some (g, p) := by
  obtain ⟨r, h1, h2⟩ := objects_ok criterion find include_ n nIsland nObj (fun i g o hf => (hr i g o hf).2) coupling
  refine ⟨r.1, r.2, h1, fun i h3 h4 g o hf => h2.found i g o h3 h4 hf (hr i g o hf).1, fun i h3 h4 hf => h2.other i ?_, fun i hn => h2.other i ?_,
    fun g p hg hp => ?_⟩
  · rintro ⟨_, _, g, o, k, _⟩
    rw [hf] at k; cases k
  · rintro ⟨k1, k2, _⟩
    exact hn ⟨k1, k2⟩
  · obtain ⟨i, ⟨k1, k2, k3, _⟩, _⟩ := h2.unique g p hg hp
    exact ⟨i, k1, k2, k3⟩

/-! ## What is handed to the solvers -/

/-- The island as the admittance matrix takes it, with the buses of the shunts. -/
def islandTopo (s : State A) (c : Coupled) (shunts : Nat → List Nat) (g : Nat) (I : Island A) : YBus.Topo :=
  ⟨buses s g, c.branchBus g, shunts g, I.fillIn⟩

/-- Where the ends of a branch of an island are. -/
theorem branch_ends {G : Grid A} (h : G.Valid) {s : State A} {c : Coupled} (hb : build G = some (s, c)) {g : Nat} {b : Option Nat × Option Nat}
    (hm : b ∈ c.branchBus g) : (∃ x y, (∀ p, b.1 = some p → s.node x = some (g, p)) ∧ (∀ p, b.2 = some p → s.node y = some (g, p)) ∧
      (b.1 ≠ none → b.2 ≠ none → Linked G x y) ∧ (b.1 ≠ none ∨ b.2 ≠ none)) := by
  obtain ⟨hs, hc⟩ := build_inv h hb
  obtain ⟨p, hp, e⟩ := List.mem_iff_getElem.mp hm
  obtain ⟨a, ha⟩ := (hc.slot g p).mpr hp
  have hget : (c.branchBus g)[p]? = some b := by rw [List.getElem?_eq_getElem hp, e]
  rcases a with k | ⟨k, m⟩
  · have ha : c.branch[k]? = some (some (g, p)) := ha
    have hkl : k < G.branches.length := by
      rw [← hc.len]
      by_contra hn
      rw [List.getElem?_eq_none (by omega)] at ha
      cases ha
    have hbk := List.getElem?_eq_getElem hkl
    obtain ⟨f, t, h1, ⟨i1, i2⟩, ⟨j1, j2⟩, h4⟩ := hc.on k _ g p hbk ha
    rw [hget] at h1
    injection h1 with h1
    subst h1
    have hci : f ≠ none → G.branches[k].iConn = true := by
      intro hne
      cases hi : G.branches[k].iConn with
      | true => rfl
      | false => exact absurd (i1 hi) hne
    have hcj : t ≠ none → G.branches[k].jConn = true := by
      intro hne
      cases hi : G.branches[k].jConn with
      | true => rfl
      | false => exact absurd (j1 hi) hne
    refine ⟨G.branches[k].i, G.branches[k].j, fun p' hp' => ?_, fun p' hp' => ?_, fun n1 n2 => ?_, ?_⟩
    · have hp' : f = some p' := hp'
      obtain ⟨q, e1, e2⟩ := i2 (hci (by rw [hp']; simp))
      rw [hp'] at e1
      injection e1 with e1
      rw [e1]; exact e2
    · have hp' : t = some p' := hp'
      obtain ⟨q, e1, e2⟩ := j2 (hcj (by rw [hp']; simp))
      rw [hp'] at e1
      injection e1 with e1
      rw [e1]; exact e2
    · exact ⟨_, Link.forward (List.getElem_mem hkl) (hci n1) (hcj n2)⟩
    · have hn : ¬(branchGroup G.branches[k] (s.node G.branches[k].i) (s.node G.branches[k].j) = none) := by rw [h4]; simp
      rw [branchGroup_none hs, ← not_or, not_not] at hn
      rcases hn with ⟨c1, _⟩ | ⟨c1, _⟩
      · obtain ⟨q, e1, _⟩ := i2 c1
        left; show f ≠ none; rw [e1]; simp
      · obtain ⟨q, e1, _⟩ := j2 c1
        right; show t ≠ none; rw [e1]; simp
  · obtain ⟨q, h1, h2⟩ := ha
    have hkl : k < (G.branch3s.zipIdx.map fun b => (b.1, G.nNode + b.2)).length := by
      rw [← hc.len3]
      by_contra hn
      rw [List.getElem?_eq_none (by omega)] at h1
      cases h1
    have hk3 : k < G.branch3s.length := by simpa using hkl
    have hget3 : (G.branch3s.zipIdx.map fun b => (b.1, G.nNode + b.2))[k]? = some (G.branch3s[k], G.nNode + k) := by
      rw [List.getElem?_map, List.getElem?_zipIdx, List.getElem?_eq_getElem hk3]
      simp
    obtain ⟨pj, h3, h4⟩ := hc.on3 k _ g q hget3 h1
    obtain ⟨f, h5, h6, h7⟩ := h4 m
    rw [h2, hget] at h5
    injection h5 with h5
    subst h5
    have hcf : f ≠ none → G.branch3s[k].conn m = true := by
      intro hne
      cases hi : G.branch3s[k].conn m with
      | true => rfl
      | false => exact absurd (h6 hi) hne
    refine ⟨G.branch3s[k].node m, G.nNode + k, fun p' hp' => ?_, fun p' hp' => ?_, fun n1 _ => ?_, ?_⟩
    · have hp' : f = some p' := hp'
      obtain ⟨q, e1, e2⟩ := h7 (hcf (by rw [hp']; simp))
      rw [hp'] at e1
      injection e1 with e1
      rw [e1]; exact e2
    · have hp' : some pj = some p' := hp'
      injection hp' with hp'
      rw [← hp']; exact h3
    · exact ⟨_, Link.inward (List.getElem?_eq_getElem hk3) (hcf n1)⟩
    · right; simp

/-- Directly connected nodes of an island have a branch between their buses. -/
theorem linked_branch {G : Grid A} (h : G.Valid) {s : State A} {c : Coupled} (hb : build G = some (s, c)) {g x y p q : Nat}
    (hx : s.node x = some (g, p)) (hy : s.node y = some (g, q)) (hl : Linked G x y) : ∃ b ∈ c.branchBus g, YBus.Connects b p q := by
  obtain ⟨hs, hc⟩ := build_inv h hb
  have side : ∀ {g' : Nat} {conn : Bool} {x g p : Nat} {f : Option Nat}, SideOk s g' conn x f → conn = true → s.node x = some (g, p) → g' = g ∧ f = some p := by
    intro g' conn x g p f hok hc hx
    obtain ⟨p', e1, e2⟩ := hok.2 hc
    rw [hx] at e2
    simp only [Option.some.injEq, Prod.mk.injEq] at e2
    exact ⟨e2.1.symm, by rw [e1, e2.2]⟩
  have two : ∀ b : Branch A, b ∈ G.branches → b.iConn = true → b.jConn = true → ∀ p q, s.node b.i = some (g, p) → s.node b.j = some (g, q) →
      (some p, some q) ∈ c.branchBus g := by
    intro b hbm h1 h2 p q hp hq
    obtain ⟨k, hk, e⟩ := List.mem_iff_getElem.mp hbm
    have hbk : G.branches[k]? = some b := by rw [List.getElem?_eq_getElem hk, e]
    rcases branches_coupled h hb hbk with ⟨_, n1, _⟩ | ⟨g', p', f, t, _, e2, e3, e4, _⟩
    · exact absurd ⟨h1, (energised_iff h hb _).mp (by rw [hp]; simp)⟩ n1
    · obtain ⟨rfl, rfl⟩ := side e3 h1 hp
      obtain ⟨_, rfl⟩ := side e4 h2 hq
      exact List.mem_of_getElem? e2
  have three : ∀ (b : Branch3 A) k m, G.branch3s[k]? = some b → b.conn m = true → ∀ p q, s.node (b.node m) = some (g, p) →
      s.node (G.nNode + k) = some (g, q) → (some p, some q) ∈ c.branchBus g := by
    intro b k m hk h1 p q hp hq
    rcases branch3s_coupled h hb hk with ⟨_, n1, _⟩ | ⟨g', q', pj, _, e2, _, e3⟩
    · exact absurd ⟨h1, (energised_iff h hb _).mp (by rw [hp]; simp)⟩ (n1 m)
    · obtain ⟨f, e4, e5⟩ := e3 m
      obtain ⟨rfl, rfl⟩ := side e5 h1 hp
      rw [hq] at e2
      simp only [Option.some.injEq, Prod.mk.injEq, true_and] at e2
      rw [e2]
      exact List.mem_of_getElem? e4
  obtain ⟨a, hl⟩ := hl
  cases hl with
  | forward hbm h1 h2 => exact ⟨_, two _ hbm h1 h2 p q hx hy, Or.inl rfl⟩
  | backward hbm h1 h2 => exact ⟨_, two _ hbm h1 h2 q p hy hx, Or.inr rfl⟩
  | inward hk h1 => exact ⟨_, three _ _ _ hk h1 p q hx hy, Or.inl rfl⟩
  | outward hk h1 => exact ⟨_, three _ _ _ hk h1 q p hy hx, Or.inr rfl⟩

/-- Two buses have an entry in the admittance matrix exactly if their nodes are the same or directly connected. -/
theorem inY_iff {G : Grid A} (h : G.Valid) {s : State A} {c : Coupled} (hb : build G = some (s, c)) {g : Nat} {I : Island A}
    (shunts : Nat → List Nat) {x y p q : Nat} (hx : s.node x = some (g, p)) (hy : s.node y = some (g, q)) :
    YBus.InY (islandTopo s c shunts g I) p q ↔ x = y ∨ Linked G x y := by
  obtain ⟨hnum, hinj, _⟩ := numbering h hb
  have inj : ∀ x y p, s.node x = some (g, p) → s.node y = some (g, p) → x = y := by
    intro x y p hx hy
    obtain ⟨_, n1, n2⟩ := hnum x g p hx
    obtain ⟨z, _, hz⟩ := hinj g p n1 n2
    rw [hz x hx, hz y hy]
  constructor
  · rintro (e | ⟨b, hbm, hc⟩)
    · subst e
      exact Or.inl (inj x y p hx hy)
    · right
      obtain ⟨x', y', e1, e2, e3, _⟩ := branch_ends h hb hbm
      rcases hc with hc | hc <;> rw [hc] at e1 e2 e3
      · rw [inj x x' p hx (e1 p rfl), inj y y' q hy (e2 q rfl)]
        exact e3 (by simp) (by simp)
      · rw [inj x y' p hx (e2 p rfl), inj y x' q hy (e1 q rfl)]
        exact linked_symm (e3 (by simp) (by simp))
  · rintro (rfl | hl)
    · left
      rw [hx] at hy
      simp only [Option.some.injEq, Prod.mk.injEq, true_and] at hy
      exact hy
    · exact Or.inr (linked_branch h hb hx hy hl)

/-- **C12/C14: the islands are ones for which the structure of the admittance matrix is built correctly.** -/
theorem island_valid {G : Grid A} (h : G.Valid) {s : State A} {c : Coupled} (hb : build G = some (s, c)) {g : Nat} {I : Island A}
    (hI : s.islands[g]? = some I) (shunts : Nat → List Nat) (hsh : ∀ p ∈ shunts g, p < buses s g) : (islandTopo s c shunts g I).Valid := by
  obtain ⟨hs, hc⟩ := build_inv h hb
  have hE := edges_undirected h
  obtain ⟨root, order, h2, h3⟩ := hs.islands g I hI
  have hg : g < s.islands.length := by
    by_contra hn
    rw [List.getElem?_eq_none (by omega)] at hI
    cases hI
  obtain ⟨hnum, hinj, hpos⟩ := numbering h hb
  have hlen := island_buses hI h3
  refine ⟨hpos g hg, fun b hbm => ?_, hsh, fun f hf => ?_, fun f hf => ?_, fun f hf b hbm hcon => ?_, h3.ordered.once, ?_⟩
  · obtain ⟨x, y, e1, e2, _⟩ := branch_ends h hb hbm
    exact ⟨fun p hp => (hnum x g p (e1 p hp)).2.2, fun p hp => (hnum y g p (e2 p hp)).2.2⟩
  · obtain ⟨x, y, hx, hy, _, _, _, rfl⟩ := h3.ordered.fill f hf
    show order.idxOf x < buses s g ∧ order.idxOf y < buses s g
    rw [hlen]
    exact ⟨List.idxOf_lt_length_of_mem hx, List.idxOf_lt_length_of_mem hy⟩
  · obtain ⟨x, y, hx, hy, hne, _, _, rfl⟩ := h3.ordered.fill f hf
    exact fun e => hne (idxOf_inj hx e)
  · obtain ⟨x, y, hx, hy, hne, hn, _, rfl⟩ := h3.ordered.fill f hf
    have := (inY_iff h hb (I := I) shunts (node_of_order h3 hx) (node_of_order h3 hy)).mp (Or.inr ⟨b, hbm, hcon⟩)
    rcases this with e | e
    · exact hne e
    · exact hn ((step_iff_linked h x y).mpr ⟨hne, e⟩)
  · by_cases hone : buses s g = 1
    · by_cases hbr : c.branchBus g = []
      · by_cases hss : shunts g = []
        · exact Or.inl ⟨hbr, hss, hone⟩
        · right
          intro p hp
          have hp : p < buses s g := hp
          obtain ⟨q, hq⟩ := List.exists_mem_of_ne_nil _ hss
          right
          have := hsh q hq
          have hpq : p = q := by omega
          rw [hpq]; exact hq
      · right
        intro p hp
        have hp : p < buses s g := hp
        left
        obtain ⟨b, hbm⟩ := List.exists_mem_of_ne_nil _ hbr
        refine ⟨b, hbm, ?_⟩
        obtain ⟨x, y, e1, e2, _, e3⟩ := branch_ends h hb hbm
        rcases e3 with e3 | e3
        · obtain ⟨q, hq⟩ := Option.ne_none_iff_exists'.mp e3
          have := (hnum x g q (e1 q hq)).2.2
          left
          rw [hq]; congr 1; omega
        · obtain ⟨q, hq⟩ := Option.ne_none_iff_exists'.mp e3
          have := (hnum y g q (e2 q hq)).2.2
          right
          rw [hq]; congr 1; omega
    · right
      intro p hp
      have hp : p < buses s g := hp
      left
      obtain ⟨x, hx, _⟩ := hinj g p hg hp
      obtain ⟨I', root', order', _, _, k3, k4, _⟩ := node_some hs hx
      have hxo : x ∈ order := (h3.mem x).mpr (by rw [← node_group hs, hx]; rfl)
      -- another node of the island, and a neighbour on the way to it
      have hnb : ∃ y, Linked G x y ∧ y ∈ order := by
        by_cases hxr : x = root
        · have : ∃ z ∈ order, z ≠ root := by
            by_contra hn
            push Not at hn
            have hsub : order ⊆ [root] := fun z hz => by simp [hn z hz]
            have := (h3.ordered.nodup.subperm hsub).length_le
            simp at this
            omega
          obtain ⟨z, hz, hzr⟩ := this
          rcases Relation.ReflTransGen.cases_head ((h3.reach z).mp hz) with e | ⟨y, e, _⟩
          · exact absurd e.symm hzr
          · refine ⟨y, ?_, (h3.reach y).mpr (Relation.ReflTransGen.single e)⟩
            rw [hxr]
            exact ((step_iff_linked h _ _).mp e).2
        · rcases Relation.ReflTransGen.cases_tail ((h3.reach x).mp hxo) with e | ⟨y, r, e⟩
          · exact absurd e hxr
          · exact ⟨y, linked_symm ((step_iff_linked h _ _).mp e).2, (h3.reach y).mpr r⟩
      obtain ⟨y, hl, hyo⟩ := hnb
      obtain ⟨b, hbm, hcon⟩ := linked_branch h hb hx (node_of_order h3 hyo) hl
      refine ⟨b, hbm, ?_⟩
      rcases hcon with e | e <;> rw [e] <;> simp

/-- **C12/C13/C16: with the fill-ins of the topology the pattern of every island is closed under elimination**, which is what the sparse solver
needs. -/
theorem island_closed {G : Grid A} (h : G.Valid) {s : State A} {c : Coupled} (hb : build G = some (s, c)) {g : Nat} {I : Island A}
    (hI : s.islands[g]? = some I) (shunts : Nat → List Nat) : PowerFlow.FillClosed (islandTopo s c shunts g I) := by
  obtain ⟨hs, hc⟩ := build_inv h hb
  obtain ⟨root, order, h2, h3⟩ := hs.islands g I hI
  have hlen := island_buses hI h3
  have hn := h3.ordered.nodup
  intro i j k hi hj hki hkj hik hkj'
  have hi : i < order.length := by rw [← hlen]; exact hi
  have hj : j < order.length := by rw [← hlen]; exact hj
  have hk : k < order.length := by omega
  have idx : ∀ (p : Nat) (hp : p < order.length), order.idxOf order[p] = p := fun p hp => hn.idxOf_getElem p hp
  have nd : ∀ (p : Nat) (hp : p < order.length), s.node order[p] = some (g, p) := fun p hp => by
    rw [node_of_order h3 (List.getElem_mem hp), idx p hp]
  have lu : ∀ (p q : Nat) (hp : p < order.length) (hq : q < order.length), p ≠ q → (YBus.InLu (islandTopo s c shunts g I) p q ↔
      (Step (edges G) order[p] order[q] ∨ (p, q) ∈ I.fillIn ∨ (q, p) ∈ I.fillIn)) := by
    intro p q hp hq hpq
    unfold YBus.InLu
    rw [inY_iff h hb shunts (nd p hp) (nd q hq), step_iff_linked h]
    have hne : order[p] ≠ order[q] := by
      intro e
      have := congrArg order.idxOf e
      rw [idx p hp, idx q hq] at this
      exact hpq this
    show (_ ∨ (p, q) ∈ I.fillIn ∨ (q, p) ∈ I.fillIn) ↔ _
    constructor
    · rintro ((e | e) | e)
      · exact absurd e hne
      · exact Or.inl ⟨hne, e⟩
      · exact Or.inr e
    · rintro (⟨_, e⟩ | e)
      · exact Or.inl (Or.inr e)
      · exact Or.inr e
  by_cases hij : i = j
  · exact Or.inl (Or.inl hij)
  · rw [lu i j hi hj hij]
    rw [lu k j hk hj (by omega)] at hkj'
    have hik' := (lu k i hk hi (by omega)).mp (PowerFlow.inLu_symm hik)
    have := h3.ordered.closed order[k] order[i] order[j] (List.getElem_mem hk) (List.getElem_mem hi) (List.getElem_mem hj)
      (by rw [idx k hk, idx i hi]; exact hki) (by rw [idx k hk, idx j hj]; exact hkj)
      (by
        intro e
        have := congrArg order.idxOf e
        rw [idx i hi, idx j hj] at this
        exact hij this)
    rw [idx k hk, idx i hi, idx j hj] at this
    exact this hik' hkj'

end PGM.Topology
