import Verif.Supernode.Spec
import Verif.Topology.Search
import Mathlib.Tactic.SplitIfs
import Mathlib.Tactic.Push

/-!
# Supernodes: lemmas
-/

namespace PGM.Supernode

open PGM.Topology

theorem mem_edges (links : List LinkIn) (e : Edge Int) : e ∈ edges links ↔
    ∃ l ∈ links, l.fromConn = true ∧ l.toConn = true ∧ (e = ⟨l.from_, l.to, 0⟩ ∨ e = ⟨l.to, l.from_, 0⟩) := by
  unfold edges
  rw [List.mem_flatMap]
  constructor
  · rintro ⟨l, hl, he⟩
    unfold linkEdges at he
    split_ifs at he with h
    · cases he
    · rw [not_or] at h
      exact ⟨l, hl, by simpa using h.1, by simpa using h.2, by simpa using he⟩
  · rintro ⟨l, hl, h1, h2, he⟩
    refine ⟨l, hl, ?_⟩
    unfold linkEdges
    rw [if_neg (by simp [h1, h2])]
    simpa using he

theorem step_iff (links : List LinkIn) (x y : Nat) : Step (edges links) x y ↔ Closed links x y := by
  constructor
  · rintro ⟨e, he, rfl, rfl⟩
    obtain ⟨l, hl, h1, h2, rfl | rfl⟩ := (mem_edges links e).mp he
    · exact ⟨l, hl, h1, h2, Or.inl ⟨rfl, rfl⟩⟩
    · exact ⟨l, hl, h1, h2, Or.inr ⟨rfl, rfl⟩⟩
  · rintro ⟨l, hl, h1, h2, ⟨rfl, rfl⟩ | ⟨rfl, rfl⟩⟩
    · exact ⟨_, (mem_edges links _).mpr ⟨l, hl, h1, h2, Or.inl rfl⟩, rfl, rfl⟩
    · exact ⟨_, (mem_edges links _).mpr ⟨l, hl, h1, h2, Or.inr rfl⟩, rfl, rfl⟩

theorem chain_iff (links : List LinkIn) (x y : Nat) : Relation.ReflTransGen (Step (edges links)) x y ↔ Chain links x y := by
  have : Step (edges links) = Closed links := by
    funext a b
    exact propext (step_iff links a b)
  rw [this]; rfl

theorem closed_symm {links : List LinkIn} {x y : Nat} (h : Closed links x y) : Closed links y x := by
  obtain ⟨l, hl, h1, h2, h3⟩ := h
  exact ⟨l, hl, h1, h2, h3.symm⟩

theorem chain_symm {links : List LinkIn} {x y : Nat} (h : Chain links x y) : Chain links y x := by
  induction h with
  | refl => exact Relation.ReflTransGen.refl
  | tail _ hs ih => exact Relation.ReflTransGen.head (closed_symm hs) ih

theorem edges_bidirected {links : List LinkIn} {n : Nat} (h : ∀ l ∈ links, l.from_ < n ∧ l.to < n) : Bidirected (edges links) n := by
  refine ⟨fun e he => ?_, fun e he => ?_⟩
  · obtain ⟨l, hl, h1, h2, rfl | rfl⟩ := (mem_edges links e).mp he
    · exact ⟨_, (mem_edges links _).mpr ⟨l, hl, h1, h2, Or.inr rfl⟩, rfl, rfl⟩
    · exact ⟨_, (mem_edges links _).mpr ⟨l, hl, h1, h2, Or.inl rfl⟩, rfl, rfl⟩
  · obtain ⟨l, hl, h1, h2, rfl | rfl⟩ := (mem_edges links e).mp he
    · exact h l hl
    · exact (h l hl).symm

/-- What holds after some vertices. -/
structure CompInv (links : List LinkIn) (k : Nat) (s : Visit Int × Nat) : Prop where
  between : Between (edges links) s.1
  black : ∀ v, s.1.colour v = .black ↔ s.1.group v ≠ none
  reached : ∀ v, s.1.group v ≠ none ↔ ∃ a, a < k ∧ Chain links a v
  range : ∀ v g, s.1.group v = some g → g < s.2
  used : ∀ g, g < s.2 → ∃ v, v < k ∧ s.1.group v = some g
  same : ∀ x y g g', s.1.group x = some g → s.1.group y = some g' → (g = g' ↔ Chain links x y)

theorem component_step {links : List LinkIn} {n k : Nat} (h : ∀ l ∈ links, l.from_ < n ∧ l.to < n) (hk : k < n) {s : Visit Int × Nat}
    (hs : CompInv links k s) : ∃ s', componentStep (edges links) n s k = some s' ∧ CompInv links (k + 1) s' := by
  have hE := edges_bidirected h
  unfold componentStep
  by_cases hw : s.1.colour k = .white
  · rw [if_pos hw]
    obtain ⟨st, e1, hv, hb⟩ := visit_ok (g := s.2) hE hs.between hk hw
    refine ⟨(st, s.2 + 1), by rw [e1]; rfl, ?_⟩
    have hmem : ∀ v, v ∈ st.dfsNode ↔ Chain links k v := fun v => by rw [hv.mem, chain_iff]
    have hnone : s.1.group k = none := by
      by_contra hne
      rw [(hs.black k).mpr hne] at hw
      cases hw
    -- vertices in reach of a new vertex are new
    have hnew : ∀ v, v ∈ st.dfsNode → s.1.group v = none := by
      intro v hvm
      by_contra hne
      obtain ⟨a, ha, hc⟩ := (hs.reached v).mp hne
      have : s.1.group k ≠ none := (hs.reached k).mpr ⟨a, ha, hc.trans (chain_symm ((hmem v).mp hvm))⟩
      exact this hnone
    have hold : ∀ v, v ∉ st.dfsNode → st.group v = s.1.group v := fun v hvm => (hv.untouched v hvm).2.1
    refine ⟨hb, fun v => ?_, fun v => ?_, fun v g hg => ?_, fun g hg => ?_, fun x y g g' hx hy => ?_⟩
    · show st.colour v = .black ↔ st.group v ≠ none
      rw [hv.colour]
      by_cases hvm : v ∈ st.dfsNode
      · rw [if_pos hvm, hv.group v hvm]; simp
      · rw [if_neg hvm, hold v hvm]; exact hs.black v
    · show st.group v ≠ none ↔ _
      by_cases hvm : v ∈ st.dfsNode
      · rw [hv.group v hvm]
        simp only [ne_eq, reduceCtorEq, not_false_eq_true, true_iff]
        exact ⟨k, by omega, (hmem v).mp hvm⟩
      · rw [hold v hvm, hs.reached]
        constructor
        · rintro ⟨a, ha, hc⟩; exact ⟨a, by omega, hc⟩
        · rintro ⟨a, ha, hc⟩
          by_cases hak : a = k
          · subst hak; exact absurd ((hmem v).mpr hc) hvm
          · exact ⟨a, by omega, hc⟩
    · have hg : st.group v = some g := hg
      show g < s.2 + 1
      by_cases hvm : v ∈ st.dfsNode
      · rw [hv.group v hvm] at hg
        injection hg with hg
        omega
      · rw [hold v hvm] at hg
        have := hs.range v g hg
        omega
    · have hg : g < s.2 + 1 := hg
      show ∃ v, v < k + 1 ∧ st.group v = some g
      by_cases hgs : g = s.2
      · exact ⟨k, by omega, by rw [hv.group k ((hmem k).mpr Relation.ReflTransGen.refl), hgs]⟩
      · obtain ⟨v, h1, h2⟩ := hs.used g (by omega)
        refine ⟨v, by omega, ?_⟩
        rw [hold v (fun hvm => by rw [hnew v hvm] at h2; cases h2)]
        exact h2
    · have hx : st.group x = some g := hx
      have hy : st.group y = some g' := hy
      by_cases hxm : x ∈ st.dfsNode
      · rw [hv.group x hxm] at hx
        injection hx with hx
        by_cases hym : y ∈ st.dfsNode
        · rw [hv.group y hym] at hy
          injection hy with hy
          exact ⟨fun _ => (chain_symm ((hmem x).mp hxm)).trans ((hmem y).mp hym), fun _ => by omega⟩
        · rw [hold y hym] at hy
          have := hs.range y g' hy
          exact ⟨fun e => by omega, fun e => absurd ((hmem y).mpr (((hmem x).mp hxm).trans e)) hym⟩
      · rw [hold x hxm] at hx
        by_cases hym : y ∈ st.dfsNode
        · rw [hv.group y hym] at hy
          injection hy with hy
          have := hs.range x g hx
          exact ⟨fun e => by omega, fun e => absurd ((hmem x).mpr (((hmem y).mp hym).trans (chain_symm e))) hxm⟩
        · rw [hold y hym] at hy
          exact hs.same x y g g' hx hy
  · rw [if_neg hw]
    refine ⟨s, rfl, hs.between, hs.black, fun v => ?_, hs.range, fun g hg => ?_, hs.same⟩
    · rw [hs.reached]
      constructor
      · rintro ⟨a, ha, hc⟩; exact ⟨a, by omega, hc⟩
      · rintro ⟨a, ha, hc⟩
        by_cases hak : a = k
        · subst hak
          have hb : s.1.colour a = .black := by
            cases hc' : s.1.colour a with
            | white => exact absurd hc' hw
            | gray => exact absurd hc' (hs.between.noGray a)
            | black => rfl
          obtain ⟨b, hb1, hb2⟩ := (hs.reached a).mp ((hs.black a).mp hb)
          exact ⟨b, hb1, hb2.trans hc⟩
        · exact ⟨a, by omega, hc⟩
    · obtain ⟨v, h1, h2⟩ := hs.used g hg
      exact ⟨v, by omega, h2⟩

theorem components_ok {links : List LinkIn} {n : Nat} (h : ∀ l ∈ links, l.from_ < n ∧ l.to < n) :
    ∃ s, components (edges links) n = some s ∧ CompInv links n s := by
  have main : ∀ k, k ≤ n → ∃ s, (List.range k).foldlM (componentStep (edges links) n)
      ((⟨fun _ => .white, fun _ => none, fun _ => 0, fun v => v, [], []⟩, 0) : Visit Int × Nat) = some s ∧ CompInv links k s := by
    intro k
    induction k with
    | zero =>
      intro _
      exact ⟨_, rfl, ⟨fun v => (by simp), (fun e _ he => absurd he (by simp)), fun _ _ => rfl⟩, by simp, by simp, by simp, by simp, by simp⟩
    | succ k ih =>
      intro hk
      obtain ⟨s, h1, h2⟩ := ih (by omega)
      obtain ⟨s', h3, h4⟩ := component_step h (by omega) h2
      refine ⟨s', ?_, h4⟩
      rw [List.range_succ, List.foldlM_append, h1]
      simp only [bind, Option.bind, List.foldlM_cons, List.foldlM_nil, h3]
      rfl
  exact main n (le_refl n)

/-- The mapping of nodes to supernodes. -/
structure MappingOk (n : Nat) (links : List LinkIn) (m : Mapping) : Prop where
  length : m.topo.length = n
  range : ∀ g ∈ m.topo, g < m.nTopo
  used : ∀ g, g < m.nTopo → g ∈ m.topo
  same : ∀ (x y g g' : Nat), m.topo[x]? = some g → m.topo[y]? = some g' → (g = g' ↔ Chain links x y)

theorem foldl_max_le (l : List Nat) (a b : Nat) (ha : a ≤ b) (h : ∀ x ∈ l, x ≤ b) : l.foldl max a ≤ b := by
  induction l generalizing a with
  | nil => exact ha
  | cons x l ih => exact ih (max a x) (by have := h x (by simp); omega) (fun y hy => h y (by simp [hy]))

theorem le_foldl_max (l : List Nat) (a : Nat) : a ≤ l.foldl max a ∧ ∀ x ∈ l, x ≤ l.foldl max a := by
  induction l generalizing a with
  | nil => simp
  | cons x l ih =>
    obtain ⟨h1, h2⟩ := ih (max a x)
    refine ⟨by simp only [List.foldl_cons]; omega, fun y hy => ?_⟩
    rcases List.mem_cons.mp hy with rfl | hy
    · simp only [List.foldl_cons]; omega
    · exact h2 y hy

theorem findComponents_ok {links : List LinkIn} {n : Nat} (h : ∀ l ∈ links, l.from_ < n ∧ l.to < n) :
    ∃ m, findComponents n links = some m ∧ MappingOk n links m := by
  obtain ⟨s, h1, h2⟩ := components_ok h
  have hsome : ∀ v, v < n → ∃ g, s.1.group v = some g := by
    intro v hv
    exact Option.ne_none_iff_exists'.mp ((h2.reached v).mpr ⟨v, hv, Relation.ReflTransGen.refl⟩)
  have hget : ∀ (x g : Nat), ((List.range n).map fun v => (s.1.group v).getD v)[x]? = some g ↔ x < n ∧ s.1.group x = some g := by
    intro x g
    rw [List.getElem?_map]
    by_cases hx : x < n
    · rw [List.getElem?_range hx]
      obtain ⟨g', hg'⟩ := hsome x hx
      simp [hg', hx]
    · rw [List.getElem?_eq_none (by simp; omega)]
      simp [hx]
  have hmem : ∀ g, g ∈ ((List.range n).map fun v => (s.1.group v).getD v) ↔ g < s.2 := by
    intro g
    constructor
    · intro hm
      obtain ⟨x, hx⟩ := List.mem_iff_getElem?.mp hm
      exact h2.range x g ((hget x g).mp hx).2
    · intro hg
      obtain ⟨v, hv, e⟩ := h2.used g hg
      exact List.mem_iff_getElem?.mpr ⟨v, (hget v g).mpr ⟨hv, e⟩⟩
  refine ⟨⟨s.2, (List.range n).map fun v => (s.1.group v).getD v⟩, ?_, ⟨by simp, fun g hg => (hmem g).mp hg, fun g hg => (hmem g).mpr hg,
    fun x y g g' hx hy => h2.same x y g g' ((hget x g).mp hx).2 ((hget y g').mp hy).2⟩⟩
  unfold findComponents
  rw [h1]
  simp only [Option.bind_eq_bind, Option.bind_some]
  unfold mkMapping
  rw [if_pos]
  by_cases he : ((List.range n).map fun v => (s.1.group v).getD v) = []
  · rw [if_pos he]
    by_contra hn
    have := (hmem 0).mpr (by omega)
    rw [he] at this
    cases this
  · rw [if_neg he]
    obtain ⟨b1, b2⟩ := le_foldl_max ((List.range n).map fun v => (s.1.group v).getD v) 0
    obtain ⟨g, hg⟩ := List.exists_mem_of_ne_nil _ he
    have hpos : 0 < s.2 := by have := (hmem g).mp hg; omega
    have := b2 (s.2 - 1) ((hmem _).mpr (by omega))
    have := foldl_max_le ((List.range n).map fun v => (s.1.group v).getD v) 0 (s.2 - 1) (by omega)
      (fun x hx => by have := (hmem x).mp hx; omega)
    omega

/-! ## Coupling of nodes and links -/

/-- The coupling of the first `k` nodes. -/
structure NodesOk (t : List Nat) (k : Nat) (s : (Nat → List Nat) × List (Nat × Nat)) : Prop where
  len : s.2.length = k
  coup : ∀ (x g p : Nat), s.2[x]? = some (g, p) → t[x]? = some g ∧ (s.1 g)[p]? = some x
  place : ∀ (g p x : Nat), (s.1 g)[p]? = some x → s.2[x]? = some (g, p)

theorem coupleNodes_ok (m : Mapping) : NodesOk m.topo m.topo.length (coupleNodes m) := by
  have main : ∀ (l pre : List Nat) s, m.topo = pre ++ l → NodesOk m.topo pre.length s →
      NodesOk m.topo m.topo.length (((l.zipIdx pre.length).map fun x => (x.2, x.1)).foldl nodeStep s) := by
    intro l
    induction l with
    | nil =>
      intro pre s he hs
      rw [he, List.append_nil] at *
      exact hs
    | cons g l ih =>
      intro pre s he hs
      rw [List.zipIdx_cons, List.map_cons, List.foldl_cons]
      have := ih (pre ++ [g]) (nodeStep s (pre.length, g)) (by simp [he]) ?_
      · simpa using this
      · have hpre : m.topo[pre.length]? = some g := by rw [he]; simp
        have hlen := hs.len
        refine ⟨by simp [nodeStep, hs.len], fun x g' p hx => ?_, fun g' p x hx => ?_⟩
        · unfold nodeStep at hx ⊢
          simp only at hx ⊢
          rw [List.getElem?_append] at hx
          split_ifs at hx with hlt
          · obtain ⟨h1, h2⟩ := hs.coup x g' p hx
            refine ⟨h1, ?_⟩
            rw [Function.update_apply]
            split_ifs with hg
            · subst hg
              rw [List.getElem?_append, if_pos]
              · exact h2
              · by_contra hn
                rw [List.getElem?_eq_none (by omega)] at h2
                cases h2
            · exact h2
          · have hx0 : x - s.2.length = 0 := by
              by_contra hn
              rw [List.getElem?_eq_none (by simp; omega)] at hx
              cases hx
            rw [hx0] at hx
            simp only [List.getElem?_cons_zero, Option.some.injEq, Prod.mk.injEq] at hx
            obtain ⟨rfl, rfl⟩ := hx
            have hxx : x = pre.length := by omega
            subst hxx
            exact ⟨hpre, by simp⟩
        · unfold nodeStep at hx ⊢
          simp only at hx ⊢
          rw [Function.update_apply] at hx
          have keep : ∀ {x g' p : Nat}, (s.1 g')[p]? = some x → (s.2 ++ [(g, (s.1 g).length)])[x]? = some (g', p) := by
            intro x g' p e
            have := hs.place g' p x e
            rw [List.getElem?_append, if_pos]
            · exact this
            · by_contra hn
              rw [List.getElem?_eq_none (by omega)] at this
              cases this
          split_ifs at hx with hg
          · subst hg
            rw [List.getElem?_append] at hx
            split_ifs at hx with hlt
            · exact keep hx
            · have hp0 : p - (s.1 g').length = 0 := by
                by_contra hn
                rw [List.getElem?_eq_none (by simp; omega)] at hx
                cases hx
              rw [hp0] at hx
              simp only [List.getElem?_cons_zero, Option.some.injEq] at hx
              subst hx
              have : p = (s.1 g').length := by omega
              subst this
              rw [← hs.len]; simp
          · exact keep hx
  exact main m.topo [] (fun _ => [], []) rfl ⟨rfl, by simp, by simp⟩

/-- The coupling of some links. -/
structure LinksOk (m : Mapping) (ls : List LinkIn) (s : (Nat → List (Option Nat × Option Nat)) × List (Option (Nat × Nat))) : Prop where
  len : s.2.length = ls.length
  off : ∀ (k : Nat) l, ls[k]? = some l → (s.2[k]? = some none ↔ l.fromConn = false ∧ l.toConn = false)
  on : ∀ (k : Nat) l g p, ls[k]? = some l → s.2[k]? = some (some (g, p)) →
    (l.fromConn = true → m.topo[l.from_]? = some g) ∧ (l.toConn = true → m.topo[l.to]? = some g) ∧ (s.1 g)[p]? = some (linkEnds l)
  place : ∀ (g p : Nat), p < (s.1 g).length → ∃ k : Nat, s.2[k]? = some (some (g, p)) ∧ ∀ k' : Nat, s.2[k']? = some (some (g, p)) → k' = k

theorem linkStep_ok {n : Nat} {links : List LinkIn} {m : Mapping} (hm : MappingOk n links m) {ls : List LinkIn}
    {s : (Nat → List (Option Nat × Option Nat)) × List (Option (Nat × Nat))} (hs : LinksOk m ls s) (l : LinkIn) (hl : l ∈ links)
    (hr : l.from_ < n ∧ l.to < n) : ∃ s', linkStep m s l = some s' ∧ LinksOk m (ls ++ [l]) s' := by
  obtain ⟨gf, hgf⟩ : ∃ g, m.topo[l.from_]? = some g := ⟨_, List.getElem?_eq_getElem (by rw [hm.length]; exact hr.1)⟩
  obtain ⟨gt, hgt⟩ : ∃ g, m.topo[l.to]? = some g := ⟨_, List.getElem?_eq_getElem (by rw [hm.length]; exact hr.2)⟩
  have hboth : l.fromConn = true → l.toConn = true → gf = gt := fun h1 h2 =>
    (hm.same _ _ gf gt hgf hgt).mpr (Relation.ReflTransGen.single ⟨l, hl, h1, h2, Or.inl ⟨rfl, rfl⟩⟩)
  have hsame : ¬((l.fromConn && l.toConn && !(m.topo[l.from_]? == m.topo[l.to]?)) = true) := by
    rw [hgf, hgt]
    intro h
    simp only [Bool.and_eq_true, Bool.not_eq_true', beq_eq_false_iff_ne, ne_eq, Option.some.injEq] at h
    exact h.2 (hboth h.1.1 h.1.2)
  unfold linkStep
  rw [if_neg hsame]
  have hsnoc : ∀ (k : Nat) l', (ls ++ [l])[k]? = some l' → (k < ls.length ∧ ls[k]? = some l') ∨ (k = ls.length ∧ l' = l) := by
    intro k l' h
    rw [List.getElem?_append] at h
    split_ifs at h with hk
    · exact Or.inl ⟨hk, h⟩
    · have hk0 : k - ls.length = 0 := by
        by_contra hn
        rw [List.getElem?_eq_none (by simp; omega)] at h
        cases h
      rw [hk0] at h
      simp only [List.getElem?_cons_zero, Option.some.injEq] at h
      exact Or.inr ⟨by omega, h.symm⟩
  have hold : ∀ (k : Nat) (o : Option (Nat × Nat)), k < ls.length → (s.2 ++ [o])[k]? = s.2[k]? := by
    intro k o hk
    rw [List.getElem?_append, if_pos (by rw [hs.len]; exact hk)]
  have hlast : ∀ (o : Option (Nat × Nat)), (s.2 ++ [o])[ls.length]? = some o := by
    intro o
    rw [← hs.len]; simp
  have hout : ∀ (k : Nat) (o : Option (Nat × Nat)) v, (s.2 ++ [o])[k]? = some v → (k < ls.length ∧ s.2[k]? = some v) ∨ (k = ls.length ∧ v = o) := by
    intro k o v h
    rcases Nat.lt_trichotomy k ls.length with hk | hk | hk
    · rw [hold k o hk] at h; exact Or.inl ⟨hk, h⟩
    · subst hk
      rw [hlast] at h
      injection h with h
      exact Or.inr ⟨rfl, h.symm⟩
    · rw [List.getElem?_eq_none (by simp [hs.len]; omega)] at h
      cases h
  cases ht : linkTopo m l with
  | none =>
    refine ⟨_, rfl, ?_⟩
    have hoff : l.fromConn = false ∧ l.toConn = false := by
      unfold linkTopo at ht
      rw [hgf, hgt] at ht
      split_ifs at ht with h1 h2
      exact ⟨by simpa using h1, by simpa using h2⟩
    refine ⟨by simp [hs.len], fun k l' hk => ?_, fun k l' g p hk hv => ?_, fun g p hp => ?_⟩
    · rcases hsnoc k l' hk with ⟨hlt, hk⟩ | ⟨rfl, rfl⟩
      · show (s.2 ++ [none])[k]? = _ ↔ _
        rw [hold k none hlt]; exact hs.off k l' hk
      · show (s.2 ++ [none])[ls.length]? = _ ↔ _
        rw [hlast]; simp [hoff]
    · rcases hout k none _ hv with ⟨hlt, hv⟩ | ⟨_, h⟩
      · rcases hsnoc k l' hk with ⟨_, hk⟩ | ⟨h, _⟩
        · exact hs.on k l' g p hk hv
        · omega
      · cases h
    · obtain ⟨k, h1, h2⟩ := hs.place g p hp
      have hkl : k < ls.length := by
        by_contra hn
        rw [List.getElem?_eq_none (by rw [hs.len]; omega)] at h1
        cases h1
      refine ⟨k, (hold k none hkl).trans h1, fun k' hk' => ?_⟩
      rcases hout k' none _ hk' with ⟨_, hv⟩ | ⟨_, h⟩
      · exact h2 k' hv
      · cases h
  | some g =>
    refine ⟨_, rfl, ?_⟩
    have hon : (l.fromConn = true ∨ l.toConn = true) ∧ (l.fromConn = true → m.topo[l.from_]? = some g) ∧ (l.toConn = true → m.topo[l.to]? = some g) := by
      unfold linkTopo at ht
      split_ifs at ht with h1 h2
      · refine ⟨Or.inl h1, fun _ => ht, fun h2 => ?_⟩
        rw [hgt, ← hboth h1 h2, ← hgf, ht]
      · exact ⟨Or.inr h2, fun h => absurd h h1, fun _ => ht⟩
    have hfun : ∀ g', (Function.update s.1 g (s.1 g ++ [linkEnds l])) g' = if g' = g then s.1 g ++ [linkEnds l] else s.1 g' :=
      fun g' => Function.update_apply _ _ _ _
    refine ⟨by simp [hs.len], fun k l' hk => ?_, fun k l' g' p hk hv => ?_, fun g' p hp => ?_⟩
    · rcases hsnoc k l' hk with ⟨hlt, hk⟩ | ⟨rfl, rfl⟩
      · show (s.2 ++ [some (g, (s.1 g).length)])[k]? = _ ↔ _
        rw [hold k _ hlt]; exact hs.off k l' hk
      · show (s.2 ++ [some (g, (s.1 g).length)])[ls.length]? = _ ↔ _
        rw [hlast]
        rcases hon.1 with h | h <;> simp [h]
    · show _ ∧ _ ∧ (Function.update s.1 g (s.1 g ++ [linkEnds l]) g')[p]? = _
      rw [hfun]
      rcases hout k _ _ hv with ⟨hlt, hv⟩ | ⟨rfl, h⟩
      · rcases hsnoc k l' hk with ⟨_, hk⟩ | ⟨h, _⟩
        · obtain ⟨a1, a2, a3⟩ := hs.on k l' g' p hk hv
          refine ⟨a1, a2, ?_⟩
          split_ifs with hg
          · subst hg
            rw [List.getElem?_append, if_pos]
            · exact a3
            · by_contra hn
              rw [List.getElem?_eq_none (by omega)] at a3
              cases a3
          · exact a3
        · omega
      · injection h with h
        injection h with h1 h2
        subst h1 h2
        rcases hsnoc _ l' hk with ⟨h, _⟩ | ⟨_, rfl⟩
        · omega
        · exact ⟨hon.2.1, hon.2.2, by simp⟩
    · have hp : p < (Function.update s.1 g (s.1 g ++ [linkEnds l]) g').length := hp
      rw [hfun] at hp
      by_cases hg : g' = g ∧ p = (s.1 g).length
      · obtain ⟨rfl, rfl⟩ := hg
        refine ⟨ls.length, hlast _, fun k' hk' => ?_⟩
        rcases hout k' _ _ hk' with ⟨hlt, hv⟩ | ⟨h, _⟩
        · have hk : ls[k']? = some ls[k'] := List.getElem?_eq_getElem hlt
          have := (hs.on k' _ g' _ hk hv).2.2
          rw [List.getElem?_eq_none (by omega)] at this
          cases this
        · exact h
      · have hp' : p < (s.1 g').length := by
          split_ifs at hp with h
          · subst h
            rw [List.length_append, List.length_singleton] at hp
            have : p ≠ (s.1 g').length := fun e => hg ⟨rfl, e⟩
            omega
          · exact hp
        obtain ⟨k, h1, h2⟩ := hs.place g' p hp'
        have hkl : k < ls.length := by
          by_contra hn
          rw [List.getElem?_eq_none (by rw [hs.len]; omega)] at h1
          cases h1
        refine ⟨k, (hold k _ hkl).trans h1, fun k' hk' => ?_⟩
        rcases hout k' _ _ hk' with ⟨_, hv⟩ | ⟨_, h⟩
        · exact h2 k' hv
        · injection h with h
          injection h with e1 e2
          exact absurd ⟨e1, e2⟩ hg

theorem coupleLinks_ok {n : Nat} {links : List LinkIn} {m : Mapping} (hm : MappingOk n links m) (h : ∀ l ∈ links, l.from_ < n ∧ l.to < n) :
    ∃ s, coupleLinks m links = some s ∧ LinksOk m links s := by
  have main : ∀ (l pre : List LinkIn) s, links = pre ++ l → LinksOk m pre s → ∃ s', l.foldlM (linkStep m) s = some s' ∧ LinksOk m links s' := by
    intro l
    induction l with
    | nil =>
      intro pre s he hs
      rw [List.append_nil] at he
      subst he
      exact ⟨s, rfl, hs⟩
    | cons a l ih =>
      intro pre s he hs
      have ha : a ∈ links := by rw [he]; simp
      obtain ⟨s', h1, h2⟩ := linkStep_ok hm hs a ha (h a ha)
      obtain ⟨s'', h3, h4⟩ := ih (pre ++ [a]) s' (by simp [he]) h2
      refine ⟨s'', ?_, h4⟩
      rw [List.foldlM_cons, h1]
      exact h3
  exact main links [] _ rfl ⟨rfl, by simp, by simp, by simp⟩

/-! ## The reduced grid -/

variable {A : Type} [AddGroup A]

/-- The node of the reduced grid that stands for a node. -/
def target (m : Mapping) (n x : Nat) : Nat := if x < n then m.topo[x]?.getD x else m.nTopo + (x - n)

theorem target_lt {n : Nat} {links : List LinkIn} {m : Mapping} (hm : MappingOk n links m) {x : Nat} (hx : x < n) :
    m.topo[x]? = some (target m n x) ∧ target m n x < m.nTopo ∧ m.topo[x]?.getD x = target m n x := by
  have hlt : x < m.topo.length := by rw [hm.length]; exact hx
  have : target m n x = m.topo[x] := by
    unfold target
    rw [if_pos hx, List.getElem?_eq_getElem hlt]; rfl
  exact ⟨by rw [this, List.getElem?_eq_getElem hlt], by rw [this]; exact hm.range _ (List.getElem_mem hlt), by rw [this, List.getElem?_eq_getElem hlt]; rfl⟩

theorem remap_valid {G : Grid A} (hG : G.Valid) {links : List LinkIn} {m : Mapping} (hm : MappingOk G.nNode links m) : (remapGrid m G).Valid := by
  refine ⟨fun b hb => ?_, fun b hb k => ?_, fun s hs => ?_⟩
  · obtain ⟨b0, h0, rfl⟩ := List.mem_map.mp hb
    have := hG.branch b0 h0
    refine ⟨?_, ?_⟩
    · show m.topo[b0.i]?.getD b0.i < m.nTopo
      rw [(target_lt hm this.1).2.2]; exact (target_lt hm this.1).2.1
    · show m.topo[b0.j]?.getD b0.j < m.nTopo
      rw [(target_lt hm this.2).2.2]; exact (target_lt hm this.2).2.1
  · obtain ⟨b0, h0, rfl⟩ := List.mem_map.mp hb
    have := hG.branch3 b0 h0 k
    show m.topo[b0.node k]?.getD (b0.node k) < m.nTopo
    rw [(target_lt hm this).2.2]; exact (target_lt hm this).2.1
  · obtain ⟨s0, h0, rfl⟩ := List.mem_map.mp hs
    have := hG.source s0 h0
    show m.topo[s0.1]?.getD s0.1 < m.nTopo
    rw [(target_lt hm this).2.2]; exact (target_lt hm this).2.1

theorem linked_target {G : Grid A} (hG : G.Valid) {links : List LinkIn} {m : Mapping} (hm : MappingOk G.nNode links m) {x y : Nat}
    (h : Linked G x y) : Linked (remapGrid m G) (target m G.nNode x) (target m G.nNode y) := by
  obtain ⟨a, h⟩ := h
  have hint : ∀ k, target m G.nNode (G.nNode + k) = (remapGrid m G).nNode + k := by
    intro k
    unfold target
    rw [if_neg (by omega)]
    show m.nTopo + _ = m.nTopo + k
    omega
  have hb3 : ∀ {b : Branch3 A} {k : Nat}, G.branch3s[k]? = some b →
      (remapGrid m G).branch3s[k]? = some { b with node := fun k => m.topo[b.node k]?.getD (b.node k) } := by
    intro b k e
    show (G.branch3s.map _)[k]? = _
    rw [List.getElem?_map, e]; rfl
  have hb : ∀ {b : Branch A}, b ∈ G.branches → { b with i := m.topo[b.i]?.getD b.i, j := m.topo[b.j]?.getD b.j } ∈ (remapGrid m G).branches :=
    fun e => List.mem_map_of_mem e
  cases h with
  | forward h1 h2 h3 =>
    have := hG.branch _ h1
    rw [← (target_lt hm this.1).2.2, ← (target_lt hm this.2).2.2]
    exact ⟨_, Link.forward (hb h1) h2 h3⟩
  | backward h1 h2 h3 =>
    have := hG.branch _ h1
    rw [← (target_lt hm this.1).2.2, ← (target_lt hm this.2).2.2]
    exact ⟨_, Link.backward (hb h1) h2 h3⟩
  | @inward b k j h1 h2 =>
    have := hG.branch3 _ (List.mem_of_getElem? h1) j
    rw [← (target_lt hm this).2.2, hint]
    exact ⟨_, Link.inward (hb3 h1) (m := j) h2⟩
  | @outward b k j h1 h2 =>
    have := hG.branch3 _ (List.mem_of_getElem? h1) j
    rw [← (target_lt hm this).2.2, hint]
    exact ⟨_, Link.outward (hb3 h1) (m := j) h2⟩

theorem linked_source {G : Grid A} (hG : G.Valid) {links : List LinkIn} {m : Mapping} (hm : MappingOk G.nNode links m) {a b : Nat}
    (h : Linked (remapGrid m G) a b) : ∃ x y, Linked G x y ∧ target m G.nNode x = a ∧ target m G.nNode y = b := by
  obtain ⟨s, h⟩ := h
  have hint : ∀ k, target m G.nNode (G.nNode + k) = (remapGrid m G).nNode + k := by
    intro k
    unfold target
    rw [if_neg (by omega)]
    show m.nTopo + _ = m.nTopo + k
    omega
  have hb3 : ∀ {b : Branch3 A} {k : Nat}, (remapGrid m G).branch3s[k]? = some b →
      ∃ b0, G.branch3s[k]? = some b0 ∧ b = { b0 with node := fun k => m.topo[b0.node k]?.getD (b0.node k) } := by
    intro b k e
    have e : (G.branch3s.map _)[k]? = some b := e
    rw [List.getElem?_map, Option.map_eq_some_iff] at e
    obtain ⟨b0, h1, h2⟩ := e
    exact ⟨b0, h1, h2.symm⟩
  cases h with
  | forward h1 h2 h3 =>
    obtain ⟨b0, h0, rfl⟩ := List.mem_map.mp h1
    have := hG.branch _ h0
    exact ⟨b0.i, b0.j, ⟨_, Link.forward h0 h2 h3⟩, (target_lt hm this.1).2.2.symm, (target_lt hm this.2).2.2.symm⟩
  | backward h1 h2 h3 =>
    obtain ⟨b0, h0, rfl⟩ := List.mem_map.mp h1
    have := hG.branch _ h0
    exact ⟨b0.j, b0.i, ⟨_, Link.backward h0 h2 h3⟩, (target_lt hm this.2).2.2.symm, (target_lt hm this.1).2.2.symm⟩
  | @inward b k j h1 h2 =>
    obtain ⟨b0, h0, rfl⟩ := hb3 h1
    have := hG.branch3 _ (List.mem_of_getElem? h0) j
    exact ⟨b0.node j, G.nNode + k, ⟨_, Link.inward h0 h2⟩, (target_lt hm this).2.2.symm, hint k⟩
  | @outward b k j h1 h2 =>
    obtain ⟨b0, h0, rfl⟩ := hb3 h1
    have := hG.branch3 _ (List.mem_of_getElem? h0) j
    exact ⟨G.nNode + k, b0.node j, ⟨_, Link.outward h0 h2⟩, hint k, (target_lt hm this).2.2.symm⟩

/-- Nodes with the same target are connected by links. -/
theorem target_same {U : UserGrid A} {m : Mapping} (hm : MappingOk U.grid.nNode U.links m) {x y : Nat}
    (h : target m U.grid.nNode x = target m U.grid.nNode y) : UserReach U x y := by
  by_cases hx : x < U.grid.nNode
  · obtain ⟨a1, a2, _⟩ := target_lt hm hx
    by_cases hy : y < U.grid.nNode
    · obtain ⟨b1, b2, _⟩ := target_lt hm hy
      have := (hm.same x y _ _ a1 b1).mp h
      have main : ∀ {b c : Nat}, Chain U.links b c → UserReach U b c := by
        intro b c e
        induction e with
        | refl => exact Relation.ReflTransGen.refl
        | tail _ e ih => exact ih.tail (Or.inr e)
      exact main this
    · exfalso
      have : target m U.grid.nNode y = m.nTopo + (y - U.grid.nNode) := by unfold target; rw [if_neg hy]
      omega
  · have e1 : target m U.grid.nNode x = m.nTopo + (x - U.grid.nNode) := by unfold target; rw [if_neg hx]
    by_cases hy : y < U.grid.nNode
    · obtain ⟨b1, b2, _⟩ := target_lt hm hy
      omega
    · have e2 : target m U.grid.nNode y = m.nTopo + (y - U.grid.nNode) := by unfold target; rw [if_neg hy]
      have : x = y := by omega
      subst this
      exact Relation.ReflTransGen.refl

theorem reach_target {U : UserGrid A} (hU : U.Valid) {m : Mapping} (hm : MappingOk U.grid.nNode U.links m) (x y : Nat) :
    Reach (remapGrid m U.grid) (target m U.grid.nNode x) (target m U.grid.nNode y) ↔ UserReach U x y := by
  constructor
  · intro h
    have main : ∀ b, Reach (remapGrid m U.grid) (target m U.grid.nNode x) b → ∀ z, target m U.grid.nNode z = b → UserReach U x z := by
      intro b hb
      induction hb with
      | refl => exact fun z hz => target_same hm hz.symm
      | tail _ hl ih =>
        intro z hz
        obtain ⟨u, v, h1, h2, h3⟩ := linked_source hU.grid hm hl
        exact ((ih u h2).tail (Or.inl h1)).trans (target_same hm (h3.trans hz.symm))
    exact main _ h y rfl
  · intro h
    induction h with
    | refl => exact Relation.ReflTransGen.refl
    | tail _ hl ih =>
      rcases hl with hl | hl
      · exact ih.tail (linked_target hU.grid hm hl)
      · rename_i b c _
        have hr : b < U.grid.nNode ∧ c < U.grid.nNode := by
          obtain ⟨l, h1, _, _, ⟨rfl, rfl⟩ | ⟨rfl, rfl⟩⟩ := hl
          · exact hU.link l h1
          · exact (hU.link l h1).symm
        have := (hm.same b c _ _ (target_lt hm hr.1).1 (target_lt hm hr.2).1).mpr (Relation.ReflTransGen.single hl)
        rw [← this]; exact ih

end PGM.Supernode
