import Verif.Topology.Search
import Verif.Ordering.Props

/-!
# The order of the buses in an island
-/

namespace PGM.Topology

variable {A : Type} [AddGroup A]

/-- What the reordering uses of a search. -/
structure Tree (E : List (Edge A)) (root : Nat) (D : List Nat) (pred : Nat → Nat) (back : List (Nat × Nat)) : Prop where
  nodup : D.Nodup
  rootIn : root ∈ D
  order : ∀ p x q, D = p ++ x :: q → (x = root ∧ p = []) ∨ (x ≠ root ∧ pred x ∈ p)
  predRoot : pred root = root
  tree : ∀ x ∈ D, x ≠ root → Step E (pred x) x
  backEdges : ∀ b ∈ back, b.1 ∈ D ∧ b.2 ∈ D ∧ pred b.1 ≠ b.2 ∧ Up pred b.1 b.2 ∧ Step E b.1 b.2
  known : ∀ x y, x ∈ D → Step E x y → Known pred back x y
  stepIn : ∀ x y, x ∈ D → Step E x y → y ∈ D

theorem Visited.toTree {E : List (Edge A)} {g root : Nat} {st₀ st : Visit A} (h : Visited E g root st₀ st) :
    Tree E root st.dfsNode st.pred st.back where
  nodup := h.nodup
  rootIn := (h.mem root).mpr Relation.ReflTransGen.refl
  order := h.order
  predRoot := h.predRoot
  tree x hx hr := by
    obtain ⟨e, he, h1, h2, _⟩ := h.tree x hx hr
    exact ⟨e, he, h1, h2⟩
  backEdges := h.back
  known := h.known
  stepIn x y hx hs := (h.mem y).mpr (((h.mem x).mp hx).tail hs)

section tree

variable {E : List (Edge A)} {n root : Nat} {D : List Nat} {pred : Nat → Nat} {back : List (Nat × Nat)}

theorem Tree.idx_pred (h : Tree E root D pred back) {x : Nat} (hx : x ∈ D) (hr : x ≠ root) : pred x ∈ D ∧ D.idxOf (pred x) < D.idxOf x := by
  obtain ⟨p, q, hs⟩ := List.append_of_mem hx
  rcases h.order p x q hs with ⟨rfl, _⟩ | ⟨_, h3⟩
  · exact absurd rfl hr
  · have hvp : x ∉ p := fun e => (List.nodup_append.mp (hs ▸ h.nodup)).2.2 x e x (by simp) rfl
    rw [hs, List.idxOf_append_of_notMem hvp, List.idxOf_cons_self, List.idxOf_append_of_mem h3]
    have := List.idxOf_lt_length_of_mem h3
    exact ⟨by simp [h3], by omega⟩

theorem Tree.pred_mem (h : Tree E root D pred back) {x : Nat} (hx : x ∈ D) : pred x ∈ D := by
  by_cases hr : x = root
  · rw [hr, h.predRoot]; exact h.rootIn
  · exact (h.idx_pred hx hr).1

theorem Tree.pred_ne (h : Tree E root D pred back) {x : Nat} (hx : x ∈ D) : pred x ≠ x ↔ x ≠ root := by
  constructor
  · rintro hne rfl
    exact hne h.predRoot
  · intro hr e
    have := (h.idx_pred hx hr).2
    rw [e] at this
    omega

theorem Tree.up_mem (h : Tree E root D pred back) {x y : Nat} (hx : x ∈ D) (hu : Up pred x y) : y ∈ D := by
  induction hu with
  | refl => exact hx
  | step _ ih => exact ih (h.pred_mem hx)

theorem Tree.up_le (h : Tree E root D pred back) {x y : Nat} (hx : x ∈ D) (hu : Up pred x y) : D.idxOf y ≤ D.idxOf x := by
  induction hu with
  | refl => omega
  | @step x y _ ih =>
    have := ih (h.pred_mem hx)
    by_cases hr : x = root
    · rw [hr, h.predRoot] at this; rw [hr]; exact this
    · have := (h.idx_pred hx hr).2
      omega

theorem Tree.idx_root (h : Tree E root D pred back) {x : Nat} (hx : x ∈ D) (h0 : D.idxOf x = 0) : x = root := by
  by_contra hr
  have := (h.idx_pred hx hr).2
  omega

theorem Tree.root_idx (h : Tree E root D pred back) : D.idxOf root = 0 := by
  obtain ⟨p, q, hs⟩ := List.append_of_mem h.rootIn
  rcases h.order p root q hs with ⟨_, hp⟩ | ⟨h1, _⟩
  · rw [hs, hp]; simp
  · exact absurd rfl h1

/-- Known edges are edges. -/
theorem Tree.step_iff (hE : Undirected E n) (h : Tree E root D pred back) {x y : Nat} (hx : x ∈ D) (hy : y ∈ D) :
    Step E x y ↔ x ≠ y ∧ Known pred back x y := by
  constructor
  · intro hs
    refine ⟨?_, h.known x y hx hs⟩
    rintro rfl
    obtain ⟨e, he, h1, h2⟩ := hs
    exact hE.loopless e he (h1.trans h2.symm)
  · rintro ⟨hne, h1 | h1 | h1 | h1⟩
    · rw [← h1]
      apply h.tree y hy
      rw [← h.pred_ne hy, h1]; exact hne
    · rw [← h1]
      apply Step.symm hE.toBidirected
      apply h.tree x hx
      rw [← h.pred_ne hx, h1]; exact Ne.symm hne
    · exact (h.backEdges _ h1).2.2.2.2
    · exact ((h.backEdges _ h1).2.2.2.2).symm hE.toBidirected

theorem Tree.back_root (hE : Undirected E n) (h : Tree E root D pred back) {b : Nat × Nat} (hb : b ∈ back) : b.1 ≠ b.2 ∧ b.1 ≠ root := by
  obtain ⟨h1, h2, h3, h4, h5⟩ := h.backEdges b hb
  have hne : b.1 ≠ b.2 := by
    intro e
    obtain ⟨e', he, e1, e2⟩ := h5
    exact hE.loopless e' he (by rw [e1, e2, e])
  refine ⟨hne, fun e => ?_⟩
  have := h.up_le h1 h4
  rw [e, h.root_idx] at this
  exact hne (e.trans (h.idx_root h2 (by omega)).symm)

end tree

/-! ## Marks -/

theorem markUp_ok {E : List (Edge A)} {root : Nat} {D : List Nat} {pred : Nat → Nat} {back : List (Nat × Nat)} (h : Tree E root D pred back)
    (fuel node : Nat) (S : Nat → Bool) (hn : node ∈ D) (hf : D.idxOf node + 1 ≤ fuel)
    (hc : ∀ x ∈ D, S x = true → S (pred x) = true ∨ pred x = node) :
    ∃ S', markUp pred fuel node S = some S' ∧ (∀ x, S' x = true ↔ S x = true ∨ Up pred node x) ∧ ∀ x ∈ D, S' x = true → S' (pred x) = true := by
  have hstop : ∀ (fuel : Nat) (node : Nat) (S : Nat → Bool), node ∈ D → (∀ x ∈ D, S x = true → S (pred x) = true ∨ pred x = node) →
      S node = true →
      ∃ S', markUp pred fuel node S = some S' ∧ (∀ x, S' x = true ↔ S x = true ∨ Up pred node x) ∧
        ∀ x ∈ D, S' x = true → S' (pred x) = true := by
    intro fuel node S hn hc hm
    have hcl : ∀ x ∈ D, S x = true → S (pred x) = true := by
      intro x hx hs
      rcases hc x hx hs with h1 | h1
      · exact h1
      · rw [h1]; exact hm
    refine ⟨S, by unfold markUp; rw [if_pos hm], fun x => ⟨Or.inl, ?_⟩, hcl⟩
    rintro (h1 | h1)
    · exact h1
    · clear hc
      induction h1 with
      | refl => exact hm
      | @step x y _ ih => exact ih (h.pred_mem hn) (hcl x hn hm)
  induction fuel generalizing node S with
  | zero => omega
  | succ fuel ih =>
    by_cases hm : S node = true
    · exact hstop _ node S hn hc hm
    · have hc' : ∀ x ∈ D, (Function.update S node true) x = true → (Function.update S node true) (pred x) = true ∨ pred x = pred node := by
        intro x hx hs
        by_cases hxn : x = node
        · right; rw [hxn]
        · left
          rw [Function.update_of_ne hxn] at hs
          by_cases hp : pred x = node
          · rw [hp, Function.update_self]
          · rw [Function.update_of_ne hp]
            rcases hc x hx hs with h1 | h1
            · exact h1
            · exact absurd h1 hp
      have hrec : ∃ S', markUp pred fuel (pred node) (Function.update S node true) = some S' ∧
          (∀ x, S' x = true ↔ (Function.update S node true) x = true ∨ Up pred (pred node) x) ∧
          ∀ x ∈ D, S' x = true → S' (pred x) = true := by
        by_cases hr : node = root
        · apply hstop _ _ _ (h.pred_mem hn) hc'
          rw [hr, h.predRoot, Function.update_self]
        · obtain ⟨h1, h2⟩ := h.idx_pred hn hr
          exact ih _ _ h1 (by omega) hc'
      obtain ⟨S', h1, h2, h3⟩ := hrec
      refine ⟨S', by unfold markUp; rw [if_neg hm]; exact h1, fun x => ?_, h3⟩
      rw [h2]
      by_cases hx : x = node
      · rw [hx, Function.update_self]
        simp only [true_or, true_iff]
        exact Or.inr (Up.refl _)
      · rw [Function.update_of_ne hx]
        constructor
        · rintro (h4 | h4)
          · exact Or.inl h4
          · exact Or.inr (Up.step h4)
        · rintro (h4 | h4)
          · exact Or.inl h4
          · cases h4 with
            | refl => exact absurd rfl hx
            | step h4 => exact Or.inr h4

theorem mark_fold {E : List (Edge A)} {root : Nat} {D : List Nat} {pred : Nat → Nat} {back : List (Nat × Nat)} (h : Tree E root D pred back)
    (bs : List (Nat × Nat)) (hb : ∀ b ∈ bs, b.1 ∈ D) (S : Nat → Bool) (hc : ∀ x ∈ D, S x = true → S (pred x) = true) :
    ∃ S', bs.foldlM (fun s e => markUp pred D.length e.1 s) S = some S' ∧ (∀ x, S' x = true ↔ S x = true ∨ ∃ b ∈ bs, Up pred b.1 x) ∧
      ∀ x ∈ D, S' x = true → S' (pred x) = true := by
  induction bs generalizing S with
  | nil => exact ⟨S, rfl, by simp, hc⟩
  | cons b bs ih =>
    have hbD := hb b (by simp)
    have hlt := List.idxOf_lt_length_of_mem hbD
    obtain ⟨S₁, h1, h2, h3⟩ := markUp_ok h D.length b.1 S hbD (by omega) (fun x hx hs => Or.inl (hc x hx hs))
    obtain ⟨S', h4, h5, h6⟩ := ih (fun b' hb' => hb b' (by simp [hb'])) S₁ h3
    refine ⟨S', ?_, fun x => ?_, h6⟩
    · rw [List.foldlM_cons, h1]
      exact h4
    · rw [h5, h2]
      simp only [List.mem_cons, exists_eq_or_imp]
      tauto

/-! ## What is required of the order -/

/-- An order of the vertices of an island with fill-ins, which are pairs of positions. -/
structure Ordered (E : List (Edge A)) (D order : List Nat) (fills : List (Nat × Nat)) : Prop where
  nodup : order.Nodup
  mem : ∀ x, x ∈ order ↔ x ∈ D
  fill : ∀ f ∈ fills, ∃ x y, x ∈ D ∧ y ∈ D ∧ x ≠ y ∧ ¬Step E x y ∧ ¬Step E y x ∧ f = (order.idxOf x, order.idxOf y)
  once : fills.Pairwise fun f g => f ≠ g ∧ f ≠ (g.2, g.1)
  closed : ∀ z x y, z ∈ D → x ∈ D → y ∈ D → order.idxOf z < order.idxOf x → order.idxOf z < order.idxOf y → x ≠ y →
    (Step E z x ∨ (order.idxOf z, order.idxOf x) ∈ fills ∨ (order.idxOf x, order.idxOf z) ∈ fills) →
    (Step E z y ∨ (order.idxOf z, order.idxOf y) ∈ fills ∨ (order.idxOf y, order.idxOf z) ∈ fills) →
    (Step E x y ∨ (order.idxOf x, order.idxOf y) ∈ fills ∨ (order.idxOf y, order.idxOf x) ∈ fills)

theorem idxOf_inj {l : List Nat} {x y : Nat} (hx : x ∈ l) (h : l.idxOf x = l.idxOf y) : x = y := by
  have hy : y ∈ l := by
    rw [← List.idxOf_lt_length_iff, ← h]
    exact List.idxOf_lt_length_of_mem hx
  exact (List.idxOf_inj hx).mp h

theorem idxOf_reverse_add {l : List Nat} (hn : l.Nodup) {z : Nat} (hz : z ∈ l) : l.reverse.idxOf z + l.idxOf z + 1 = l.length := by
  obtain ⟨p, q, rfl⟩ := List.append_of_mem hz
  have h1 : z ∉ p := fun e => (List.nodup_append.mp hn).2.2 z e z (by simp) rfl
  have h2 : z ∉ q := (List.nodup_cons.mp (List.nodup_append.mp hn).2.1).1
  rw [List.idxOf_append_of_notMem h1, List.idxOf_cons_self, List.reverse_append, List.reverse_cons, List.append_assoc,
    List.idxOf_append_of_notMem (by simpa using h2)]
  simp
  omega

theorem idxOf_reverse_lt {l : List Nat} (hn : l.Nodup) {x y : Nat} (hx : x ∈ l) (hy : y ∈ l) :
    l.reverse.idxOf x < l.reverse.idxOf y ↔ l.idxOf y < l.idxOf x := by
  have k1 := idxOf_reverse_add hn hx
  have k2 := idxOf_reverse_add hn hy
  omega

theorem idxOf_filter_lt {l : List Nat} (hn : l.Nodup) (P : Nat → Bool) {x y : Nat} (hx : x ∈ l) (hy : y ∈ l) (px : P x = true) (py : P y = true)
    (h : l.idxOf x < l.idxOf y) : (l.filter P).idxOf x < (l.filter P).idxOf y := by
  induction l with
  | nil => simp at hx
  | cons a l ih =>
    rw [List.nodup_cons] at hn
    rcases List.mem_cons.mp hx with rfl | hx'
    · rw [List.filter_cons_of_pos px, List.idxOf_cons_self]
      have hne : x ≠ y := by rintro rfl; omega
      rw [List.idxOf_cons_ne _ hne]
      omega
    · have hax : a ≠ x := fun e => hn.1 (e ▸ hx')
      rw [List.idxOf_cons_ne _ hax] at h
      have hay : a ≠ y := by
        rintro rfl
        simp at h
      rw [List.idxOf_cons_ne _ hay] at h
      have hy' : y ∈ l := by
        rcases List.mem_cons.mp hy with e | e
        · exact absurd e.symm hay
        · exact e
      have := ih hn.2 hx' hy' (by omega)
      cases hP : P a
      · rw [List.filter_cons_of_neg (by simp [hP])]; exact this
      · rw [List.filter_cons_of_pos hP, List.idxOf_cons_ne _ hax, List.idxOf_cons_ne _ hay]
        omega

/-- The unmarked vertices come first, in the reverse order of the search; each of them has only its predecessor behind it. -/
theorem assemble {E : List (Edge A)} {n root : Nat} {D : List Nat} {pred : Nat → Nat} {back : List (Nat × Nat)} (hE : Undirected E n)
    (h : Tree E root D pred back) (S : Nat → Bool) (hS : ∀ x ∈ D, S x = true → S (pred x) = true)
    (hback : ∀ b ∈ back, S b.1 = true ∧ S b.2 = true) (rest : List Nat) (hrn : rest.Nodup) (hrm : ∀ x, x ∈ rest ↔ x ∈ D ∧ S x = true)
    (pairs : List (Nat × Nat)) (hp : ∀ f ∈ pairs, f.1 ∈ rest ∧ f.2 ∈ rest ∧ f.1 ≠ f.2 ∧ ¬Step E f.1 f.2)
    (hpn : pairs.Nodup) (hp1 : ∀ x y, (x, y) ∈ pairs → (y, x) ∉ pairs)
    (hcl : ∀ z x y, Ordering.Before rest z x → Ordering.Before rest z y → x ≠ y → (Step E z x ∨ (z, x) ∈ pairs ∨ (x, z) ∈ pairs) →
      (Step E z y ∨ (z, y) ∈ pairs ∨ (y, z) ∈ pairs) → (Step E x y ∨ (x, y) ∈ pairs ∨ (y, x) ∈ pairs)) :
    Ordered E D (D.reverse.filter (fun x => !S x) ++ rest)
      (pairs.map fun f => ((D.reverse.filter (fun x => !S x) ++ rest).idxOf f.1, (D.reverse.filter (fun x => !S x) ++ rest).idxOf f.2)) := by
  set far := D.reverse.filter (fun x => !S x) with hfar
  have hfm : ∀ x, x ∈ far ↔ x ∈ D ∧ S x = false := by
    intro x; rw [hfar, List.mem_filter]; simp
  have hmem : ∀ x, x ∈ far ++ rest ↔ x ∈ D := by
    intro x
    rw [List.mem_append, hfm, hrm]
    cases S x <;> simp
  have hnr : ∀ x, x ∈ rest → x ∉ far := by
    intro x h1 h2
    rw [hfm] at h2; rw [hrm] at h1
    rw [h1.2] at h2; simp at h2
  have hfn : far.Nodup := (List.nodup_reverse.mpr h.nodup).filter _
  have hnod : (far ++ rest).Nodup := List.nodup_append.mpr ⟨hfn, hrn, fun x hx y hy e => hnr y hy (e ▸ hx)⟩
  have hpr : ∀ x y, x ∈ D → ((((far ++ rest).idxOf x, (far ++ rest).idxOf y) ∈
      pairs.map fun f => ((far ++ rest).idxOf f.1, (far ++ rest).idxOf f.2)) ↔ (x, y) ∈ pairs) := by
    intro x y hx
    rw [List.mem_map]
    constructor
    · rintro ⟨f, hf, he⟩
      obtain ⟨h1, h2, _⟩ := hp f hf
      injection he with e1 e2
      have := idxOf_inj (by simp [h1]) e1
      have h3 := idxOf_inj (by simp [h2]) e2
      rw [← this, ← h3]; exact hf
    · intro hf
      exact ⟨(x, y), hf, rfl⟩
  refine ⟨hnod, hmem, fun f hf => ?_, ?_, fun z x y hz hx hy lx ly hne ex ey => ?_⟩
  · obtain ⟨p, hpm, rfl⟩ := List.mem_map.mp hf
    obtain ⟨h1, h2, h3, h4⟩ := hp p hpm
    exact ⟨p.1, p.2, ((hrm _).mp h1).1, ((hrm _).mp h2).1, h3, h4, fun e => h4 (e.symm hE.toBidirected), rfl⟩
  · rw [List.pairwise_map]
    have : pairs.Pairwise fun f g => f ≠ g ∧ f ≠ (g.2, g.1) := by
      rw [List.Nodup, ] at hpn
      refine List.Pairwise.imp_of_mem ?_ hpn
      intro a b ha hb hab
      refine ⟨hab, fun e => ?_⟩
      have := hp1 b.2 b.1 (by rw [← e]; exact ha)
      exact this hb
    refine List.Pairwise.imp_of_mem ?_ this
    intro a b ha hb ⟨h1, h2⟩
    obtain ⟨a1, a2, _⟩ := hp a ha
    refine ⟨fun e => h1 ?_, fun e => h2 ?_⟩
    · injection e with e1 e2
      exact Prod.ext (idxOf_inj (by simp [a1]) e1) (idxOf_inj (by simp [a2]) e2)
    · injection e with e1 e2
      exact Prod.ext (idxOf_inj (by simp [a1]) e1) (idxOf_inj (by simp [a2]) e2)
  · rw [hpr z x hz, hpr x z hx] at ex
    rw [hpr z y hz, hpr y z hy] at ey
    rw [hpr x y hx, hpr y x hy]
    cases hSz : S z
    · -- an unmarked vertex
      exfalso
      have hzf : z ∈ far := (hfm z).mpr ⟨hz, hSz⟩
      have hzr : z ∉ rest := fun e => hnr z e hzf
      have later : ∀ w, w ∈ D → (far ++ rest).idxOf z < (far ++ rest).idxOf w → (Step E z w ∨ (z, w) ∈ pairs ∨ (w, z) ∈ pairs) → w = pred z := by
        intro w hw lw ew
        have hs : Step E z w := by
          rcases ew with e | e | e
          · exact e
          · exact absurd (hp _ e).1 hzr
          · exact absurd (hp _ e).2.1 hzr
        obtain ⟨hzw, hk⟩ := (h.step_iff hE hz hw).mp hs
        rcases hk with k | k | k | k
        · exfalso
          have hSw : S w = false := by
            cases hSw : S w
            · rfl
            · have := hS w hw hSw
              rw [k, hSz] at this; cases this
          have hwf : w ∈ far := (hfm w).mpr ⟨hw, hSw⟩
          have hwr : w ≠ root := by
            rw [← h.pred_ne hw, k]; exact hzw
          have hlt := (h.idx_pred hw hwr).2
          rw [k] at hlt
          have h1 := (idxOf_reverse_lt h.nodup hw hz).mpr hlt
          have h2 := idxOf_filter_lt (List.nodup_reverse.mpr h.nodup) (fun x => !S x) (by simpa using hw) (by simpa using hz) (by simp [hSw])
            (by simp [hSz]) h1
          rw [List.idxOf_append_of_mem hzf, List.idxOf_append_of_mem hwf] at lw
          rw [← hfar] at h2
          omega
        · exact k.symm
        · have := (hback _ k).1
          rw [hSz] at this; cases this
        · have := (hback _ k).2
          rw [hSz] at this; cases this
      exact hne ((later x hx lx ex).trans (later y hy ly ey).symm)
    · -- a marked vertex
      have hzr : z ∈ rest := (hrm z).mpr ⟨hz, hSz⟩
      have hzf : z ∉ far := hnr z hzr
      have bef : ∀ w, w ∈ D → (far ++ rest).idxOf z < (far ++ rest).idxOf w → Ordering.Before rest z w := by
        intro w hw lw
        rw [List.idxOf_append_of_notMem hzf] at lw
        have hwf : w ∉ far := by
          intro e
          rw [List.idxOf_append_of_mem e] at lw
          have := List.idxOf_lt_length_of_mem e
          omega
        rw [List.idxOf_append_of_notMem hwf] at lw
        have hwr : w ∈ rest := by
          have := (hmem w).mpr hw
          rw [List.mem_append] at this
          tauto
        obtain ⟨p, q, hs⟩ := List.append_of_mem hzr
        refine ⟨p, q, hs, ?_⟩
        have hzp : z ∉ p := fun e => (List.nodup_append.mp (hs ▸ hrn)).2.2 z e z (by simp) rfl
        rw [hs] at hwr lw
        rw [List.idxOf_append_of_notMem hzp, List.idxOf_cons_self] at lw
        rcases List.mem_append.mp hwr with e | e
        · exfalso
          rw [List.idxOf_append_of_mem e] at lw
          have := List.idxOf_lt_length_of_mem e
          omega
        · rcases List.mem_cons.mp e with e | e
          · exfalso
            rw [e, List.idxOf_append_of_notMem hzp, List.idxOf_cons_self] at lw
            omega
          · exact e
      exact hcl z x y (bef x hx lx) (bef y hy ly) hne ex ey

/-! ## The three cases -/

/-- Without back edges. -/
theorem tree_ordered {E : List (Edge A)} {n root : Nat} {D : List Nat} {pred : Nat → Nat} (hE : Undirected E n) (h : Tree E root D pred []) :
    Ordered E D D.reverse [] := by
  have := assemble hE h (fun _ => false) (by simp) (by simp) [] List.nodup_nil (by simp) [] (by simp) List.nodup_nil (by simp)
    (fun z x y ⟨p, q, e, _⟩ => by simp at e)
  have e : D.reverse.filter (fun x => !(fun _ => false) x) = D.reverse := List.filter_eq_self.mpr (by simp)
  rw [e] at this
  simpa using this

/-- Without cycles every node but the last has exactly one neighbour behind it. -/
theorem tree_higher {E : List (Edge A)} {n root : Nat} {D : List Nat} {pred : Nat → Nat} (hE : Undirected E n) (h : Tree E root D pred [])
    {x : Nat} (hx : x ∈ D) (hl : D.reverse.idxOf x + 1 < D.length) :
    ∃ p, Step E x p ∧ D.reverse.idxOf x < D.reverse.idxOf p ∧ ∀ y, Step E x y → D.reverse.idxOf x < D.reverse.idxOf y → y = p := by
  have hr : x ≠ root := by
    rintro rfl
    have := idxOf_reverse_add h.nodup hx
    rw [h.root_idx] at this
    omega
  obtain ⟨p1, p2⟩ := h.idx_pred hx hr
  refine ⟨pred x, (h.tree x hx hr).symm hE.toBidirected, (idxOf_reverse_lt h.nodup hx p1).mpr p2, fun y hs hlt => ?_⟩
  have hy := h.stepIn x y hx hs
  rw [idxOf_reverse_lt h.nodup hx hy] at hlt
  rcases h.known x y hx hs with e | e | e | e
  · by_cases hyr : y = root
    · rw [hyr, h.predRoot] at e
      exact absurd e.symm hr
    · have := (h.idx_pred hy hyr).2
      rw [e] at this
      omega
  · exact e.symm
  · simp at e
  · simp at e

/-- The map of the nearest neighbours after the predecessors. -/
theorem nearest_pred (pred : Nat → Nat) (l : List Nat) (hn : l.Nodup) (d : Ordering.Adj) (hs : d.keys.Pairwise (· < ·)) :
    ((l.foldl (nearestStep pred) d).keys.Pairwise (· < ·)) ∧
    (∀ k, k ∈ (l.foldl (nearestStep pred) d).keys ↔ k ∈ d.keys ∨ (k ∈ l ∧ pred k ≠ k)) ∧
    ∀ k, (l.foldl (nearestStep pred) d).nb k = if k ∈ l ∧ pred k ≠ k then [pred k] else d.nb k := by
  induction l generalizing d with
  | nil => simp [hs]
  | cons a l ih =>
    rw [List.nodup_cons] at hn
    rw [List.foldl_cons]
    by_cases ha : pred a = a
    · have e : nearestStep pred d a = d := by unfold nearestStep; rw [if_neg (by simpa using ha)]
      rw [e]
      obtain ⟨h1, h2, h3⟩ := ih hn.2 d hs
      refine ⟨h1, fun k => ?_, fun k => ?_⟩
      · rw [h2, List.mem_cons]
        constructor
        · tauto
        · rintro (h4 | ⟨rfl | h4, h5⟩)
          · exact Or.inl h4
          · exact absurd ha h5
          · exact Or.inr ⟨h4, h5⟩
      · rw [h3]
        congr 1
        rw [List.mem_cons, eq_iff_iff]
        constructor
        · tauto
        · rintro ⟨rfl | h4, h5⟩
          · exact absurd ha h5
          · exact ⟨h4, h5⟩
    · have e : nearestStep pred d a = { keys := Ordering.insertKey a d.keys, nb := fun k => if k = a then [pred a] else d.nb k } := by
        unfold nearestStep; rw [if_pos ha]
      rw [e]
      obtain ⟨h1, h2, h3⟩ := ih hn.2 { keys := Ordering.insertKey a d.keys, nb := fun k => if k = a then [pred a] else d.nb k }
        (Ordering.sorted_insertKey hs)
      refine ⟨h1, fun k => ?_, fun k => ?_⟩
      · rw [h2]
        simp only [Ordering.mem_insertKey, List.mem_cons]
        constructor
        · rintro ((rfl | h4) | h4)
          · exact Or.inr ⟨Or.inl rfl, ha⟩
          · exact Or.inl h4
          · exact Or.inr ⟨Or.inr h4.1, h4.2⟩
        · rintro (h4 | ⟨rfl | h4, h5⟩)
          · exact Or.inl (Or.inr h4)
          · exact Or.inl (Or.inl rfl)
          · exact Or.inr ⟨h4, h5⟩
      · rw [h3]
        simp only [List.mem_cons]
        by_cases hk : k = a
        · subst hk
          simp [hn.1, ha]
        · simp [hk]

/-- The map of the nearest neighbours after the back edges. -/
theorem nearest_back (bs : List (Nat × Nat)) (d : Ordering.Adj) (hs : d.keys.Pairwise (· < ·)) (hb : ∀ b ∈ bs, b.1 ∈ d.keys) :
    ((bs.foldl nearestBack d).keys.Pairwise (· < ·)) ∧ (∀ k, k ∈ (bs.foldl nearestBack d).keys ↔ k ∈ d.keys) ∧
    ∀ k e, e ∈ (bs.foldl nearestBack d).nb k ↔ e ∈ d.nb k ∨ (k, e) ∈ bs := by
  induction bs generalizing d with
  | nil => simp [hs]
  | cons b bs ih =>
    rw [List.foldl_cons]
    have hbk := hb b (by simp)
    have hstep : ((nearestBack d b).keys.Pairwise (· < ·)) ∧ (∀ k, k ∈ (nearestBack d b).keys ↔ k ∈ d.keys) ∧
        ∀ k e, e ∈ (nearestBack d b).nb k ↔ e ∈ d.nb k ∨ (k, e) = b := by
      unfold nearestBack
      by_cases hg : Ordering.inGraph b.1 b.2 d = true
      · rw [if_pos hg]
        refine ⟨hs, fun _ => Iff.rfl, fun k e => ⟨Or.inl, ?_⟩⟩
        rintro (h1 | h1)
        · exact h1
        · unfold Ordering.inGraph at hg
          simp at hg
          rw [← h1] at hg
          exact hg.2
      · rw [if_neg hg]
        refine ⟨Ordering.sorted_insertKey hs, fun k => ?_, fun k e => ?_⟩
        · show k ∈ Ordering.insertKey b.1 d.keys ↔ _
          rw [Ordering.mem_insertKey]
          constructor
          · rintro (rfl | h1)
            · exact hbk
            · exact h1
          · exact Or.inr
        · show e ∈ (if k = b.1 then d.nb b.1 ++ [b.2] else d.nb k) ↔ _
          by_cases hk : k = b.1
          · subst hk
            rw [if_pos rfl, List.mem_append, List.mem_singleton]
            constructor
            · rintro (h1 | h1)
              · exact Or.inl h1
              · exact Or.inr (by rw [h1])
            · rintro (h1 | h1)
              · exact Or.inl h1
              · exact Or.inr (by rw [← h1])
          · rw [if_neg hk]
            constructor
            · exact Or.inl
            · rintro (h1 | h1)
              · exact h1
              · exact absurd (by rw [← h1]) hk
    obtain ⟨h1, h2, h3⟩ := ih (nearestBack d b) hstep.1 (fun b' hb' => (hstep.2.1 _).mpr (hb b' (by simp [hb'])))
    refine ⟨h1, fun k => ?_, fun k e => ?_⟩
    · rw [h2, hstep.2.1]
    · rw [h3, hstep.2.2, List.mem_cons]
      tauto

theorem permuted_eq (n : Nat) (l : List Nat) (hn : l.Nodup) {x : Nat} (hx : x ∈ l) : permuted n l x = n + l.idxOf x := by
  unfold permuted
  have main : ∀ (l : List Nat) (k : Nat) (m : Nat → Nat), l.Nodup →
      (x ∉ l → ((l.zipIdx k).foldl (fun m x => Function.update m x.1 (n + x.2)) m) x = m x) ∧
      (x ∈ l → ((l.zipIdx k).foldl (fun m x => Function.update m x.1 (n + x.2)) m) x = n + (k + l.idxOf x)) := by
    intro l
    induction l with
    | nil => intro k m _; simp
    | cons a l ih =>
      intro k m hn
      rw [List.nodup_cons] at hn
      rw [List.zipIdx_cons, List.foldl_cons]
      obtain ⟨h1, h2⟩ := ih (k + 1) (Function.update m a (n + k)) hn.2
      constructor
      · intro hx
        rw [List.mem_cons, not_or] at hx
        rw [h1 hx.2, Function.update_of_ne hx.1]
      · intro hx
        by_cases hxa : x = a
        · rw [hxa] at h1 ⊢
          rw [h1 hn.1, Function.update_self, List.idxOf_cons_self]
          rfl
        · have hx' : x ∈ l := by
            rcases List.mem_cons.mp hx with e | e
            · exact absurd e hxa
            · exact e
          rw [h2 hx', List.idxOf_cons_ne _ (Ne.symm hxa)]
          omega
  have := (main l 0 (fun _ => 0) hn).2 hx
  rw [this]; omega

/-- `reorder_node` gives an order with the fill-ins it needs, and marks the vertices above a back edge. -/
theorem reorder_ok {E : List (Edge A)} {n root : Nat} {D : List Nat} {pred : Nat → Nat} {back : List (Nat × Nat)} (hE : Undirected E n)
    (h : Tree E root D pred back) (hb : back ≠ []) (S₀ : Nat → Bool) (hS₀ : ∀ x ∈ D, S₀ x = false) :
    ∃ order fills S, reorderNode pred S₀ D back = some (order, fills, S) ∧ Ordered E D order fills ∧ ∀ x, x ∉ D → S x = S₀ x := by
  obtain ⟨S, h1, h2, h3⟩ := mark_fold h back (fun b hb => (h.backEdges b hb).1) S₀ (fun x hx hs => by rw [hS₀ x hx] at hs; cases hs)
  have hmark : ∀ x ∈ D, (S x = true ↔ ∃ b ∈ back, Up pred b.1 x) := by
    intro x hx
    rw [h2, hS₀ x hx]; simp
  have hback : ∀ b ∈ back, S b.1 = true ∧ S b.2 = true := by
    intro b hb
    obtain ⟨e1, e2, _, e3, _⟩ := h.backEdges b hb
    exact ⟨(hmark _ e1).mpr ⟨b, hb, Up.refl _⟩, (hmark _ e2).mpr ⟨b, hb, e3⟩⟩
  have hout : ∀ x, x ∉ D → S x = S₀ x := by
    intro x hx
    rw [Bool.eq_iff_iff, h2]
    constructor
    · rintro (h4 | ⟨b, hb, hu⟩)
      · exact h4
      · exact absurd (h.up_mem (h.backEdges b hb).1 hu) hx
    · exact Or.inl
  set cyclic := D.filter (fun x => S x) with hcy
  have hcm : ∀ x, x ∈ cyclic ↔ x ∈ D ∧ S x = true := by
    intro x; rw [hcy, List.mem_filter]
  have hcn : cyclic.Nodup := h.nodup.filter _
  unfold reorderNode
  rw [h1]
  simp only [Option.bind_eq_bind, Option.bind_some]
  rw [← hcy]
  by_cases hlt : cyclic.length < 4
  · rw [if_pos hlt]
    refine ⟨_, _, _, rfl, ?_, hout⟩
    have hall : ∀ x y, x ∈ cyclic → y ∈ cyclic → x ≠ y → Step E x y := by
      obtain ⟨b, hbm⟩ := List.exists_mem_of_ne_nil back hb
      obtain ⟨s1, s2, s3, s4, s5⟩ := h.backEdges b hbm
      obtain ⟨hne, hsr⟩ := h.back_root hE hbm
      obtain ⟨p1, p2⟩ := h.idx_pred s1 hsr
      have hup : Up pred (pred b.1) b.2 := by
        generalize b.1 = w, b.2 = v at s4 hne
        cases s4 with
        | refl => exact absurd rfl hne
        | step u => exact u
      have hpr : pred b.1 ≠ root := by
        intro e
        have := h.up_le p1 hup
        rw [e, h.root_idx] at this
        exact s3 (e.trans (h.idx_root s2 (by omega)).symm)
      obtain ⟨q1, q2⟩ := h.idx_pred p1 hpr
      have m1 : b.1 ∈ cyclic := (hcm _).mpr ⟨s1, (hback b hbm).1⟩
      have m2 : pred b.1 ∈ cyclic := (hcm _).mpr ⟨p1, h3 _ s1 (hback b hbm).1⟩
      have m3 : b.2 ∈ cyclic := (hcm _).mpr ⟨s2, (hback b hbm).2⟩
      have m4 : pred (pred b.1) ∈ cyclic := (hcm _).mpr ⟨q1, h3 _ p1 (h3 _ s1 (hback b hbm).1)⟩
      have three : ∀ x, x ∈ cyclic → x = b.1 ∨ x = pred b.1 ∨ x = b.2 := by
        intro x hx
        by_contra hc
        push Not at hc
        have hsub : [x, b.1, pred b.1, b.2] ⊆ cyclic := by
          intro y hy
          simp only [List.mem_cons, List.not_mem_nil, or_false] at hy
          rcases hy with rfl | rfl | rfl | rfl <;> assumption
        have hnd : [x, b.1, pred b.1, b.2].Nodup := by
          have : b.1 ≠ pred b.1 := Ne.symm ((h.pred_ne s1).mpr hsr)
          simp [hc, hne, s3, this]
        have := (hnd.subperm hsub).length_le
        simp at this
        omega
      have hpp : pred (pred b.1) = b.2 := by
        rcases three _ m4 with e | e | e
        · rw [e] at q2; omega
        · rw [e] at q2; omega
        · exact e
      have e1 : Step E b.1 b.2 := s5
      have e2 : Step E b.1 (pred b.1) := (h.tree _ s1 hsr).symm hE.toBidirected
      have e3 : Step E (pred b.1) b.2 := by
        rw [← hpp]; exact (h.tree _ p1 hpr).symm hE.toBidirected
      intro x y hx hy hxy
      rcases three x hx with rfl | rfl | rfl <;> rcases three y hy with rfl | rfl | rfl
      · exact absurd rfl hxy
      · exact e2
      · exact e1
      · exact e2.symm hE.toBidirected
      · exact absurd rfl hxy
      · exact e3
      · exact e1.symm hE.toBidirected
      · exact e3.symm hE.toBidirected
      · exact absurd rfl hxy
    have := assemble hE h S h3 hback cyclic.reverse (List.nodup_reverse.mpr hcn) (fun x => by rw [List.mem_reverse, hcm]) [] (by simp)
      List.nodup_nil (by simp) (fun z x y bx by' hne _ _ => by
        left
        apply hall x y _ _ hne
        · obtain ⟨p, q, e, hq⟩ := bx
          have : x ∈ cyclic.reverse := by rw [e]; simp [hq]
          simpa using this
        · obtain ⟨p, q, e, hq⟩ := by'
          have : y ∈ cyclic.reverse := by rw [e]; simp [hq]
          simpa using this)
    simpa using this
  · rw [if_neg hlt]
    obtain ⟨n1, n2, n3⟩ := nearest_pred pred cyclic hcn ⟨[], fun _ => []⟩ List.Pairwise.nil
    set d₁ := cyclic.foldl (nearestStep pred) ⟨[], fun _ => []⟩ with hd₁
    have hkey : ∀ k, k ∈ d₁.keys ↔ k ∈ cyclic ∧ pred k ≠ k := by
      intro k; rw [n2]; simp
    obtain ⟨b1, b2, b3⟩ := nearest_back back d₁ n1 (fun b hbm => by
      rw [hkey]
      have hbD := (h.backEdges b hbm).1
      exact ⟨(hcm _).mpr ⟨hbD, (hback b hbm).1⟩, (h.pred_ne hbD).mpr (h.back_root hE hbm).2⟩)
    set d := back.foldl nearestBack d₁ with hd
    have hnb : ∀ k e, e ∈ d.nb k ↔ (k ∈ cyclic ∧ pred k ≠ k ∧ e = pred k) ∨ (k, e) ∈ back := by
      intro k e
      rw [b3, n3]
      by_cases hk : k ∈ cyclic ∧ pred k ≠ k
      · rw [if_pos hk, List.mem_singleton]
        tauto
      · rw [if_neg hk]
        simp only [List.not_mem_nil, false_or]
        tauto
    have hnbin : ∀ k e, e ∈ d.nb k → k ∈ cyclic ∧ e ∈ cyclic ∧ k ≠ e ∧ pred k ≠ k ∧ Step E k e := by
      intro k e he
      rcases (hnb k e).mp he with ⟨k1, k2, rfl⟩ | k1
      · have hkD := (hcm k).mp k1
        exact ⟨k1, (hcm _).mpr ⟨h.pred_mem hkD.1, h3 k hkD.1 hkD.2⟩, Ne.symm k2, k2, (h.tree k hkD.1 ((h.pred_ne hkD.1).mp k2)).symm hE.toBidirected⟩
      · obtain ⟨e1, e2, e3, e4, e5⟩ := h.backEdges _ k1
        obtain ⟨r1, r2⟩ := h.back_root hE k1
        obtain ⟨w1, w2⟩ := hback _ k1
        exact ⟨(hcm _).mpr ⟨e1, w1⟩, (hcm _).mpr ⟨e2, w2⟩, r1, (h.pred_ne e1).mpr r2, e5⟩
    have hedge : ∀ x y, Ordering.Edge d x y ↔ x ∈ cyclic ∧ y ∈ cyclic ∧ Step E x y := by
      intro x y
      unfold Ordering.Edge
      constructor
      · rintro (e | e)
        · obtain ⟨e1, e2, _, _, e3⟩ := hnbin _ _ e
          exact ⟨e1, e2, e3⟩
        · obtain ⟨e1, e2, _, _, e3⟩ := hnbin _ _ e
          exact ⟨e2, e1, e3.symm hE.toBidirected⟩
      · rintro ⟨e1, e2, e3⟩
        obtain ⟨hne, hk⟩ := (h.step_iff hE ((hcm x).mp e1).1 ((hcm y).mp e2).1).mp e3
        rw [hnb, hnb]
        rcases hk with k | k | k | k
        · exact Or.inr (Or.inl ⟨e2, by rw [k]; exact hne, k.symm⟩)
        · exact Or.inl (Or.inl ⟨e1, by rw [k]; exact Ne.symm hne, k.symm⟩)
        · exact Or.inl (Or.inr k)
        · exact Or.inr (Or.inr k)
    have hgraph : Ordering.Graph d := by
      refine ⟨b1, fun k hk => ?_, fun k hk => ?_, fun k hk => ?_⟩
      · obtain ⟨e, he⟩ := List.exists_mem_of_ne_nil _ hk
        rw [b2, hkey]
        obtain ⟨k1, _, _, k2, _⟩ := hnbin _ _ he
        exact ⟨k1, k2⟩
      · rcases hk with e | e <;> exact (hnbin _ _ e).2.2.1 rfl
      · rw [b2, hkey] at hk
        exact ⟨pred k, Or.inl ((hnb _ _).mpr (Or.inl ⟨hk.1, hk.2, rfl⟩))⟩
    have hvert : ∀ x, Ordering.Vertex d x ↔ x ∈ cyclic := by
      intro x
      unfold Ordering.Vertex
      constructor
      · rintro (e | ⟨k, e⟩)
        · rw [b2, hkey] at e; exact e.1
        · exact (hnbin _ _ e).2.1
      · intro hx
        by_cases hr : pred x = x
        · -- the root: some vertex below it is marked
          right
          obtain ⟨hxD, hxS⟩ := (hcm x).mp hx
          obtain ⟨b, hbm, hu⟩ := (hmark x hxD).mp hxS
          have hbr := (h.back_root hE hbm).2
          have hxr : x = root := by
            by_contra e
            exact (h.pred_ne hxD).mpr e hr
          have hbD := (h.backEdges b hbm).1
          have hbS := (hback b hbm).1
          have hbx : b.1 ≠ x := by rw [hxr]; exact hbr
          clear hbm hbr
          generalize b.1 = w at hu hbD hbS hbx
          induction hu with
          | refl => exact absurd rfl hbx
          | @step w x hu ih =>
            by_cases e : pred w = x
            · refine ⟨w, (hnb _ _).mpr (Or.inl ⟨(hcm w).mpr ⟨hbD, hbS⟩, ?_, e.symm⟩)⟩
              rw [e]; exact Ne.symm hbx
            · exact ih hx hr hxD hxS hxr (h.pred_mem hbD) (h3 w hbD hbS) e
        · left
          rw [b2, hkey]
          exact ⟨hx, hr⟩
    obtain ⟨order, fills, o1, o2, o3, _⟩ := Ordering.ordering_correct d hgraph
    obtain ⟨f1, f2⟩ := Ordering.fills_new d hgraph o1
    rw [o1]
    simp only [Option.bind_some]
    refine ⟨_, _, _, rfl, ?_, hout⟩
    have horder : ∀ x, x ∈ order ↔ x ∈ D ∧ S x = true := by
      intro x; rw [o3, hvert, hcm]
    have := assemble hE h S h3 hback order o2 horder fills (fun f hf => by
        obtain ⟨g1, g2, g3, g4, _⟩ := f1 f.1 f.2 hf
        refine ⟨(o3 _).mpr g3, (o3 _).mpr g4, g1, fun e => g2 ?_⟩
        rw [hedge]
        exact ⟨(hvert _).mp g3, (hvert _).mp g4, e⟩) f2 (fun x y hf => (f1 x y hf).2.2.2.2) (fun z x y bx by' hne ex ey => by
        have hz : z ∈ cyclic := by
          obtain ⟨p, q, e, hq⟩ := bx
          exact (hvert _).mp ((o3 _).mp (by rw [e]; simp))
        have hx : x ∈ cyclic := by
          obtain ⟨p, q, e, hq⟩ := bx
          exact (hvert _).mp ((o3 _).mp (by rw [e]; simp [hq]))
        have hy : y ∈ cyclic := by
          obtain ⟨p, q, e, hq⟩ := by'
          exact (hvert _).mp ((o3 _).mp (by rw [e]; simp [hq]))
        have := Ordering.pattern_closed d hgraph o1 bx by' hne (by rw [hedge]; tauto) (by rw [hedge]; tauto)
        rw [hedge] at this
        tauto)
    convert this using 1
    apply List.map_congr_left
    intro f hf
    obtain ⟨g1, g2, g3, g4, _⟩ := f1 f.1 f.2 hf
    have k1 := (o3 _).mpr g3
    have k2 := (o3 _).mpr g4
    have far : ∀ x, x ∈ order → x ∉ D.reverse.filter (fun x => !S x) := by
      intro x hx e
      rw [List.mem_filter] at e
      rw [horder] at hx
      simp [hx.2] at e
    rw [permuted_eq _ _ o2 k1, permuted_eq _ _ o2 k2, List.idxOf_append_of_notMem (far _ k1), List.idxOf_append_of_notMem (far _ k2)]

end PGM.Topology
