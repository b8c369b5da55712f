import Verif.Ordering.Model
import Mathlib.Data.List.Nodup
import Mathlib.Tactic.Tauto
import Mathlib.Tactic.SplitIfs

/-!
# Lemmas about the adjacency map and the degree lookup
-/

namespace PGM.Ordering

/-! ## Keys -/

theorem mem_insertKey {k x : Nat} {l : List Nat} : x ∈ insertKey k l ↔ x = k ∨ x ∈ l := by
  unfold insertKey
  split_ifs with h
  · constructor
    · exact Or.inr
    · rintro (rfl | h') <;> assumption
  · simp only [List.mem_append, List.mem_filter, List.mem_cons, decide_eq_true_eq]
    constructor
    · rintro (h' | h' | h')
      · exact Or.inr h'.1
      · exact Or.inl h'
      · exact Or.inr h'.1
    · rintro (h' | h')
      · exact Or.inr (Or.inl h')
      · rcases Nat.lt_trichotomy x k with hlt | rfl | hlt
        · exact Or.inl ⟨h', hlt⟩
        · exact absurd h' h
        · exact Or.inr (Or.inr ⟨h', hlt⟩)

theorem sorted_insertKey {k : Nat} {l : List Nat} (h : l.Pairwise (· < ·)) : (insertKey k l).Pairwise (· < ·) := by
  unfold insertKey
  split_ifs
  · exact h
  · rw [List.pairwise_append, List.pairwise_cons]
    refine ⟨h.filter _, ⟨fun x hx => by simpa using (List.mem_filter.mp hx).2, h.filter _⟩, fun x hx y hy => ?_⟩
    have h1 : x < k := by simpa using (List.mem_filter.mp hx).2
    rcases List.mem_cons.mp hy with rfl | hy
    · exact h1
    · have h2 : k < y := by simpa using (List.mem_filter.mp hy).2
      omega

/-- A graph: the keys are the vertices with neighbours, every neighbour is listed once, in both directions, and none is its own. -/
structure WF (d : Adj) : Prop where
  sorted : d.keys.Pairwise (· < ·)
  supp : ∀ k, k ∈ d.keys ↔ d.nb k ≠ []
  nodup : ∀ k, (d.nb k).Nodup
  irrefl : ∀ k, k ∉ d.nb k
  symm : ∀ k e, e ∈ d.nb k → k ∈ d.nb e

theorem WF.mem_key {d : Adj} (h : WF d) {k e : Nat} (he : e ∈ d.nb k) : k ∈ d.keys ∧ e ∈ d.keys := by
  constructor
  · rw [h.supp]; intro e'; rw [e'] at he; simp at he
  · rw [h.supp]; intro e'; have := h.symm k e he; rw [e'] at this; simp at this

/-! ## Removing a vertex -/

theorem unlink_fold (uu : Nat) (es : List Nat) (hn : es.Nodup) (d : Adj) (acc : List Nat) (hs : d.keys.Pairwise (· < ·)) :
    let r := es.foldl (unlinkStep uu) (d, acc)
    (∀ k, r.1.nb k = if k ∈ es then (d.nb k).filter (· ≠ uu) else d.nb k) ∧ (∀ k, k ∈ r.1.keys ↔ k ∈ d.keys ∨ k ∈ es) ∧
      r.1.keys.Pairwise (· < ·) ∧ ∀ k, k ∈ r.2 ↔ k ∈ acc ∨ (k ∈ es ∧ (d.nb k).filter (· ≠ uu) = []) := by
  induction es generalizing d acc with
  | nil => simp [hs]
  | cons e es ih =>
    rw [List.nodup_cons] at hn
    simp only [List.foldl_cons]
    obtain ⟨i1, i2, i3, i4⟩ := ih hn.2 (unlinkStep uu (d, acc) e).1 (unlinkStep uu (d, acc) e).2 (sorted_insertKey hs)
    have hnb : ∀ k, (unlinkStep uu (d, acc) e).1.nb k = if k = e then (d.nb e).filter (· ≠ uu) else d.nb k := fun k => rfl
    have hkeys : ∀ k, k ∈ (unlinkStep uu (d, acc) e).1.keys ↔ k = e ∨ k ∈ d.keys := fun k => mem_insertKey
    have hacc : ∀ k, k ∈ (unlinkStep uu (d, acc) e).2 ↔ k ∈ acc ∨ (k = e ∧ (d.nb e).filter (· ≠ uu) = []) := by
      intro k
      unfold unlinkStep Adj.without
      simp only [if_true]
      split_ifs with h
      · rw [List.mem_append, List.mem_singleton]; tauto
      · tauto
    refine ⟨fun k => ?_, fun k => ?_, i3, fun k => ?_⟩
    · rw [i1]
      by_cases hke : k = e
      · subst hke
        rw [if_neg hn.1, hnb, if_pos rfl, if_pos (by simp)]
      · simp only [hnb, List.mem_cons, hke, false_or, if_false]
    · rw [i2, hkeys, List.mem_cons]; tauto
    · rw [i4, hacc, List.mem_cons]
      by_cases hke : k = e
      · subst hke
        simp only [hn.1, false_and, or_false, true_or, true_and]
      · simp only [hnb, hke, false_and, or_false, false_or, if_false]

theorem erase_fold (el : List Nat) (d : Adj) (hs : d.keys.Pairwise (· < ·)) :
    let r := el.foldl Adj.erase d
    (∀ k, r.nb k = if k ∈ el then [] else d.nb k) ∧ (∀ k, k ∈ r.keys ↔ k ∈ d.keys ∧ k ∉ el) ∧ r.keys.Pairwise (· < ·) := by
  induction el generalizing d with
  | nil => simp [hs]
  | cons e el ih =>
    simp only [List.foldl_cons]
    obtain ⟨i1, i2, i3⟩ := ih (d.erase e) (hs.filter _)
    refine ⟨fun k => ?_, fun k => ?_, i3⟩
    · rw [i1]
      unfold Adj.erase
      by_cases hke : k = e
      · simp [hke]
      · simp [hke]
    · rw [i2]
      unfold Adj.erase
      simp only [List.mem_filter, decide_eq_true_eq, List.mem_cons, not_or]
      tauto

/-- The removal of one vertex. -/
theorem removeOne_ok (u uu : Nat) (nbs : List Nat) (d : Adj) (g : Lookup) (h : WF d) :
    ∃ d', removeOne u (nbs, d, g) uu = some (if uu ≠ u then nbs.filter (· ≠ uu) else nbs, d', g.erase uu) ∧ WF d' ∧
      ∀ k, d'.nb k = if k = uu then [] else (d.nb k).filter (· ≠ uu) := by
  unfold removeOne
  simp only
  have hnb : (d.touch uu).nb = d.nb := rfl
  rw [hnb, if_neg (h.irrefl uu)]
  refine ⟨_, rfl, ?_⟩
  obtain ⟨a1, a2, a3, a4⟩ := unlink_fold uu (d.nb uu) (h.nodup uu) (d.touch uu) [] (sorted_insertKey h.sorted)
  set r := (d.nb uu).foldl (unlinkStep uu) (d.touch uu, []) with hr
  obtain ⟨b1, b2, b3⟩ := erase_fold (r.2 ++ [uu]) r.1 a3
  set d' := (r.2 ++ [uu]).foldl Adj.erase r.1 with hd'
  have hval : ∀ k, d'.nb k = if k = uu then [] else (d.nb k).filter (· ≠ uu) := by
    intro k
    rw [b1]
    by_cases hk : k = uu
    · simp [hk]
    · rw [if_neg hk]
      have hmem : k ∈ r.2 ++ [uu] ↔ k ∈ d.nb uu ∧ (d.nb k).filter (· ≠ uu) = [] := by
        rw [List.mem_append, List.mem_singleton, a4]
        simp [hk, hnb]
      split_ifs with h1
      · exact (hmem.mp h1).2.symm
      · rw [a1, hnb]
        split_ifs with h2
        · rfl
        · symm
          rw [List.filter_eq_self]
          intro x hx
          simp only [ne_eq, decide_eq_true_eq]
          intro e
          subst e
          exact h2 (h.symm k x hx)
  refine ⟨⟨b3, fun k => ?_, fun k => ?_, fun k => ?_, fun k e => ?_⟩, hval⟩
  · rw [b2, hval, a2]
    have hkt : k ∈ (d.touch uu).keys ↔ k = uu ∨ k ∈ d.keys := mem_insertKey
    rw [hkt, List.mem_append, List.mem_singleton, a4]
    by_cases hk : k = uu
    · simp [hk]
    · simp only [hk, false_or, or_false, List.not_mem_nil, if_false, hnb]
      constructor
      · rintro ⟨hin, hnot⟩ hemp
        have hkey : k ∈ d.keys := by
          rcases hin with h1 | h1
          · exact h1
          · exact (h.mem_key h1).2
        by_cases hku : k ∈ d.nb uu
        · exact hnot ⟨hku, hemp⟩
        · have : d.nb k ≠ [] := (h.supp k).mp hkey
          apply this
          rw [← hemp]
          symm
          rw [List.filter_eq_self]
          intro x hx
          simp only [ne_eq, decide_eq_true_eq]
          intro e
          subst e
          exact hku (h.symm k x hx)
      · intro hne
        refine ⟨Or.inl ((h.supp k).mpr ?_), fun h1 => hne h1.2⟩
        intro e
        rw [e] at hne
        exact hne rfl
  · rw [hval]
    split_ifs
    · exact List.nodup_nil
    · exact (h.nodup k).filter _
  · rw [hval]
    split_ifs
    · simp
    · intro hm
      exact h.irrefl k (List.mem_filter.mp hm).1
  · rw [hval, hval]
    intro he
    split_ifs at he with hk
    · simp at he
    · obtain ⟨h1, h2⟩ := List.mem_filter.mp he
      have h2 : e ≠ uu := by simpa using h2
      rw [if_neg h2]
      exact List.mem_filter.mpr ⟨h.symm k e h1, by simpa using hk⟩

/-- The removal of a list of vertices. -/
theorem remove_fold (u : Nat) (us : List Nat) (nbs : List Nat) (d : Adj) (g : Lookup) (h : WF d) :
    ∃ d', us.foldlM (removeOne u) (nbs, d, g) = some (nbs.filter fun v => v ∉ us ∨ v = u, d', us.foldl Lookup.erase g) ∧ WF d' ∧
      ∀ k, d'.nb k = if k ∈ us then [] else (d.nb k).filter (· ∉ us) := by
  induction us generalizing nbs d g with
  | nil => exact ⟨d, by simp [List.foldlM], h, by simp⟩
  | cons uu us ih =>
    obtain ⟨d1, h1, h2, h3⟩ := removeOne_ok u uu nbs d g h
    obtain ⟨d2, i1, i2, i3⟩ := ih (if uu ≠ u then nbs.filter (· ≠ uu) else nbs) d1 (g.erase uu) h2
    refine ⟨d2, ?_, i2, fun k => ?_⟩
    · rw [List.foldlM_cons, h1]
      simp only [Option.bind_eq_bind, Option.bind_some, List.foldl_cons]
      rw [i1]
      congr 2
      by_cases hu : uu = u
      · subst hu
        simp only [ne_eq, not_true_eq_false, if_false]
        apply List.filter_congr
        intro x _
        simp only [List.mem_cons, not_or, decide_eq_decide]
        tauto
      · rw [if_pos hu, List.filter_filter]
        apply List.filter_congr
        intro x _
        simp only [List.mem_cons, not_or, ← Bool.decide_and, decide_eq_decide]
        constructor
        · rintro ⟨h1, h2⟩
          rcases h1 with h1 | h1
          · exact Or.inl ⟨h2, h1⟩
          · exact Or.inr h1
        · rintro (h1 | h1)
          · exact ⟨Or.inl h1.2, h1.1⟩
          · exact ⟨Or.inr h1, fun e => hu (e ▸ h1)⟩
    · rw [i3, h3]
      by_cases hk : k = uu
      · simp [hk]
      · simp only [List.mem_cons, hk, false_or, if_false, List.filter_filter]
        split_ifs
        · rfl
        · apply List.filter_congr
          intro x _
          simp only [not_or, ne_eq, ← Bool.decide_and, decide_eq_decide]
          tauto

/-! ## The clique -/

theorem makeClique_ok (l : List Nat) (hn : l.Nodup) :
    (makeClique l).keys.Pairwise (· < ·) ∧ (∀ k, k ∈ (makeClique l).keys ↔ k ∈ l) ∧
      ∀ k, k ∈ l → ∀ e, e ∈ (makeClique l).nb k ↔ e ∈ l ∧ e ≠ k := by
  unfold makeClique
  have main : ∀ m, m ≤ l.length →
      let r := (List.range m).foldl (cliqueStep l) ⟨[], fun _ => []⟩
      r.keys.Pairwise (· < ·) ∧ (∀ k, k ∈ r.keys ↔ k ∈ l.take m) ∧ ∀ k, k ∈ l.take m → ∀ e, e ∈ r.nb k ↔ e ∈ l ∧ e ≠ k := by
    intro m
    induction m with
    | zero => intro _; simp
    | succ m ih =>
      intro hm
      obtain ⟨i1, i2, i3⟩ := ih (by omega)
      simp only [List.range_succ, List.foldl_append, List.foldl_cons, List.foldl_nil]
      have hm' : m < l.length := by omega
      generalize (List.range m).foldl (cliqueStep l) ⟨[], fun _ => []⟩ = r at i1 i2 i3 ⊢
      unfold cliqueStep
      rw [List.getElem?_eq_getElem hm']
      simp only
      refine ⟨sorted_insertKey i1, fun k => ?_, fun k hk e => ?_⟩
      · rw [mem_insertKey, i2, List.take_succ_eq_append_getElem hm', List.mem_append, List.mem_singleton]
        tauto
      · by_cases hkm : k = l[m]
        · rw [if_pos hkm]
          subst hkm
          rw [List.mem_eraseIdx_iff_getElem]
          constructor
          · rintro ⟨i, hi, hne, rfl⟩
            exact ⟨List.getElem_mem _, fun e => hne ((List.Nodup.getElem_inj_iff hn).mp e)⟩
          · rintro ⟨h1, h2⟩
            obtain ⟨i, hi, rfl⟩ := List.mem_iff_getElem.mp h1
            exact ⟨i, hi, fun e => h2 (by subst e; rfl), rfl⟩
        · rw [if_neg hkm]
          apply i3
          rw [List.take_succ_eq_append_getElem hm', List.mem_append, List.mem_singleton] at hk
          tauto
  have := main l.length (Nat.le_refl _)
  simpa using this

/-- What happened in a part of the loop over the clique: edges `P` were asked for. -/
structure Filled (d₀ : Adj) (f₀ : List (Nat × Nat)) (P : Nat → Nat → Prop) (d : Adj) (f : List (Nat × Nat)) : Prop where
  wf : WF d
  nb : ∀ x y, y ∈ d.nb x ↔ y ∈ d₀.nb x ∨ P x y ∨ P y x
  new : ∃ new, f = f₀ ++ new ∧ (∀ p ∈ new, P p.1 p.2 ∧ p.2 ∉ d₀.nb p.1 ∧ p.1 ∉ d₀.nb p.2 ∧ p.1 ≠ p.2) ∧
    (new.Pairwise fun p q => p ≠ q ∧ p ≠ (q.2, q.1)) ∧ ∀ x y, y ∈ d.nb x → y ∉ d₀.nb x → (x, y) ∈ new ∨ (y, x) ∈ new

theorem Filled.congr {d₀ : Adj} {f₀ : List (Nat × Nat)} {P Q : Nat → Nat → Prop} {d : Adj} {f : List (Nat × Nat)}
    (h : Filled d₀ f₀ P d f) (hPQ : ∀ x y, P x y ↔ Q x y) : Filled d₀ f₀ Q d f := by
  have : P = Q := by funext x y; exact propext (hPQ x y)
  rw [← this]; exact h

theorem fillStep_ok {d₀ : Adj} {f₀ : List (Nat × Nat)} {P : Nat → Nat → Prop} {d : Adj} {f : List (Nat × Nat)} (h : Filled d₀ f₀ P d f)
    (k e : Nat) (hke : k ≠ e) :
    Filled d₀ f₀ (fun x y => P x y ∨ (x = k ∧ y = e)) (fillStep k (d, f) e).1 (fillStep k (d, f) e).2 := by
  unfold fillStep
  have hin : inGraph k e d = decide (e ∈ d.nb k) := by
    unfold inGraph
    by_cases he : e ∈ d.nb k
    · simp [he, (h.wf.mem_key he).1]
    · simp [he]
  rw [hin]
  by_cases he : e ∈ d.nb k
  · rw [if_pos (by simpa using he)]
    have hek := h.wf.symm k e he
    refine ⟨h.wf, fun x y => ?_, ?_⟩
    · rw [h.nb]
      constructor
      · rintro (h1 | h1 | h1)
        · exact Or.inl h1
        · exact Or.inr (Or.inl (Or.inl h1))
        · exact Or.inr (Or.inr (Or.inl h1))
      · rintro (h1 | (h1 | ⟨rfl, rfl⟩) | (h1 | ⟨rfl, rfl⟩))
        · exact Or.inl h1
        · exact Or.inr (Or.inl h1)
        · exact (h.nb _ _).mp he
        · exact Or.inr (Or.inr h1)
        · exact (h.nb _ _).mp hek
    · obtain ⟨new, n1, n2, n3, n4⟩ := h.new
      exact ⟨new, n1, fun p hp => ⟨Or.inl (n2 p hp).1, (n2 p hp).2⟩, n3, n4⟩
  · rw [if_neg (by simpa using he)]
    have hek : k ∉ d.nb e := fun h' => he (h.wf.symm e k h')
    have hnb : ∀ x y, y ∈ ((d.push k e).push e k).nb x ↔ y ∈ d.nb x ∨ (x = k ∧ y = e) ∨ (x = e ∧ y = k) := by
      intro x y
      unfold Adj.push
      simp only
      by_cases hx : x = e
      · subst hx
        rw [if_pos rfl, if_neg (Ne.symm hke), List.mem_append, List.mem_singleton]
        constructor
        · rintro (h1 | h1)
          · exact Or.inl h1
          · exact Or.inr (Or.inr ⟨rfl, h1⟩)
        · rintro (h1 | ⟨h1, _⟩ | ⟨_, h1⟩)
          · exact Or.inl h1
          · exact absurd h1.symm hke
          · exact Or.inr h1
      · rw [if_neg hx]
        by_cases hxk : x = k
        · subst hxk
          rw [if_pos rfl, List.mem_append, List.mem_singleton]
          simp [hx]
        · rw [if_neg hxk]
          simp [hx, hxk]
    have hWF : WF ((d.push k e).push e k) := by
      refine ⟨sorted_insertKey (sorted_insertKey h.wf.sorted), fun x => ?_, fun x => ?_, fun x => ?_, fun x y => ?_⟩
      · show x ∈ insertKey e (insertKey k d.keys) ↔ _
        rw [mem_insertKey, mem_insertKey, h.wf.supp]
        unfold Adj.push
        simp only
        by_cases hx : x = e
        · subst hx
          simp
        · rw [if_neg hx]
          by_cases hxk : x = k
          · subst hxk; simp
          · simp [hx, hxk]
      · unfold Adj.push
        simp only
        split_ifs with h1 h2 h2
        · exact absurd h2.symm hke
        · refine List.Nodup.append (h.wf.nodup e) (List.nodup_singleton k) ?_
          intro z hz hz'
          rw [List.mem_singleton] at hz'
          exact hek (hz' ▸ hz)
        · refine List.Nodup.append (h.wf.nodup k) (List.nodup_singleton e) ?_
          intro z hz hz'
          rw [List.mem_singleton] at hz'
          exact he (hz' ▸ hz)
        · exact h.wf.nodup x
      · rw [hnb]
        rintro (h1 | ⟨rfl, h1⟩ | ⟨rfl, h1⟩)
        · exact h.wf.irrefl x h1
        · exact hke h1
        · exact hke h1.symm
      · rw [hnb, hnb]
        rintro (h1 | ⟨rfl, rfl⟩ | ⟨rfl, rfl⟩)
        · exact Or.inl (h.wf.symm _ _ h1)
        · exact Or.inr (Or.inr ⟨rfl, rfl⟩)
        · exact Or.inr (Or.inl ⟨rfl, rfl⟩)
    refine ⟨hWF, fun x y => ?_, ?_⟩
    · rw [hnb, h.nb]
      constructor
      · rintro ((h1 | h1 | h1) | h1 | ⟨rfl, rfl⟩)
        · exact Or.inl h1
        · exact Or.inr (Or.inl (Or.inl h1))
        · exact Or.inr (Or.inr (Or.inl h1))
        · exact Or.inr (Or.inl (Or.inr h1))
        · exact Or.inr (Or.inr (Or.inr ⟨rfl, rfl⟩))
      · rintro (h1 | (h1 | h1) | (h1 | ⟨rfl, rfl⟩))
        · exact Or.inl (Or.inl h1)
        · exact Or.inl (Or.inr (Or.inl h1))
        · exact Or.inr (Or.inl h1)
        · exact Or.inl (Or.inr (Or.inr h1))
        · exact Or.inr (Or.inr ⟨rfl, rfl⟩)
    · obtain ⟨new, n1, n2, n3, n4⟩ := h.new
      have hk0 : e ∉ d₀.nb k := fun h' => he ((h.nb k e).mpr (Or.inl h'))
      have he0 : k ∉ d₀.nb e := fun h' => hek ((h.nb e k).mpr (Or.inl h'))
      refine ⟨new ++ [(k, e)], by rw [n1, List.append_assoc], ?_, ?_, ?_⟩
      · intro p hp
        rw [List.mem_append, List.mem_singleton] at hp
        rcases hp with hp | rfl
        · exact ⟨Or.inl (n2 p hp).1, (n2 p hp).2⟩
        · exact ⟨Or.inr ⟨rfl, rfl⟩, hk0, he0, hke⟩
      · rw [List.pairwise_append]
        refine ⟨n3, by simp, fun p hp q hq => ?_⟩
        rw [List.mem_singleton] at hq
        subst hq
        have hP := (n2 p hp).1
        constructor
        · rintro rfl
          exact he ((h.nb k e).mpr (Or.inr (Or.inl hP)))
        · rintro rfl
          exact he ((h.nb k e).mpr (Or.inr (Or.inr hP)))
      · intro x y h1 h2
        rw [hnb] at h1
        rw [List.mem_append, List.mem_append, List.mem_singleton, List.mem_singleton]
        rcases h1 with h1 | ⟨rfl, rfl⟩ | ⟨rfl, rfl⟩
        · rcases n4 x y h1 h2 with h3 | h3
          · exact Or.inl (Or.inl h3)
          · exact Or.inr (Or.inl h3)
        · exact Or.inl (Or.inr rfl)
        · exact Or.inr (Or.inr rfl)

theorem fill_row {d₀ : Adj} {f₀ : List (Nat × Nat)} (k : Nat) (es : List Nat) (hk : k ∉ es) {P : Nat → Nat → Prop}
    {s : Adj × List (Nat × Nat)} (h : Filled d₀ f₀ P s.1 s.2) :
    Filled d₀ f₀ (fun x y => P x y ∨ (x = k ∧ y ∈ es)) (es.foldl (fillStep k) s).1 (es.foldl (fillStep k) s).2 := by
  induction es generalizing s P with
  | nil => exact h.congr (by simp)
  | cons e es ih =>
    rw [List.mem_cons, not_or] at hk
    exact (ih hk.2 (fillStep_ok (d := s.1) (f := s.2) h k e hk.1)).congr (fun x y => by simp only [List.mem_cons]; tauto)

theorem fill_rows {d₀ : Adj} {f₀ : List (Nat × Nat)} (nb : Nat → List Nat) (ks : List Nat) (hk : ∀ k ∈ ks, k ∉ nb k)
    {P : Nat → Nat → Prop} {s : Adj × List (Nat × Nat)} (h : Filled d₀ f₀ P s.1 s.2) :
    let r := ks.foldl (fun s k => (nb k).foldl (fillStep k) s) s
    Filled d₀ f₀ (fun x y => P x y ∨ (x ∈ ks ∧ y ∈ nb x)) r.1 r.2 := by
  induction ks generalizing s P with
  | nil => exact h.congr (by simp)
  | cons k ks ih =>
    simp only [List.foldl_cons]
    refine (ih (fun k hk' => hk k (by simp [hk'])) (fill_row k (nb k) (hk k (by simp)) h)).congr (fun x y => ?_)
    simp only [List.mem_cons]
    constructor
    · rintro ((h1 | ⟨rfl, h2⟩) | ⟨h1, h2⟩)
      · exact Or.inl h1
      · exact Or.inr ⟨Or.inl rfl, h2⟩
      · exact Or.inr ⟨Or.inr h1, h2⟩
    · rintro (h1 | ⟨rfl | h1, h2⟩)
      · exact Or.inl (Or.inl h1)
      · exact Or.inl (Or.inr ⟨rfl, h2⟩)
      · exact Or.inr ⟨h1, h2⟩

/-- The loop over the clique makes the neighbours adjacent to each other. -/
theorem clique_ok (nbs : List Nat) (hn : nbs.Nodup) (d : Adj) (hd : WF d) (f : List (Nat × Nat)) :
    let r := (makeClique nbs).keys.foldl (fun s k => ((makeClique nbs).nb k).foldl (fillStep k) s) (d, f)
    Filled d f (fun x y => x ∈ nbs ∧ y ∈ nbs ∧ x ≠ y) r.1 r.2 := by
  obtain ⟨_, m2, m3⟩ := makeClique_ok nbs hn
  have h0 : Filled d f (fun _ _ => False) d f :=
    ⟨hd, by simp, [], by simp, by simp, by simp, fun x y h1 h2 => absurd h1 h2⟩
  refine (fill_rows (makeClique nbs).nb (makeClique nbs).keys (fun k hk => ?_) (s := (d, f)) h0).congr (fun x y => ?_)
  · intro h
    exact ((m3 k ((m2 k).mp hk) k).mp h).2 rfl
  · rw [m2]
    constructor
    · rintro (h | ⟨h1, h2⟩)
      · exact h.elim
      · have := (m3 x h1 y).mp h2
        exact ⟨h1, this.1, fun e => this.2 e.symm⟩
    · rintro ⟨h1, h2, h3⟩
      exact Or.inr ⟨h1, (m3 x h1 y).mpr ⟨h2, fun e => h3 e.symm⟩⟩

/-! ## The degree lookup -/

/-- The two maps agree. -/
structure Lookup.Ok (g : Lookup) : Prop where
  sorted : g.order.Pairwise fun a b => pairLt a b = true
  mem : ∀ deg v, (deg, v) ∈ g.order ↔ g.degree v = some deg

theorem mem_insertPair {x y : Nat × Nat} {l : List (Nat × Nat)} : y ∈ insertPair x l ↔ y = x ∨ y ∈ l := by
  unfold insertPair
  split_ifs with h
  · constructor
    · exact Or.inr
    · rintro (rfl | h') <;> assumption
  · simp only [List.mem_append, List.mem_filter, List.mem_cons]
    constructor
    · rintro (h' | h' | h')
      · exact Or.inr h'.1
      · exact Or.inl h'
      · exact Or.inr h'.1
    · rintro (h' | h')
      · exact Or.inr (Or.inl h')
      · have : pairLt y x = true ∨ y = x ∨ pairLt x y = true := by
          unfold pairLt
          simp only [Bool.or_eq_true, Bool.and_eq_true, decide_eq_true_eq, beq_iff_eq]
          rcases Nat.lt_trichotomy y.1 x.1 with h1 | h1 | h1
          · exact Or.inl (Or.inl h1)
          · rcases Nat.lt_trichotomy y.2 x.2 with h2 | h2 | h2
            · exact Or.inl (Or.inr ⟨h1, h2⟩)
            · exact Or.inr (Or.inl (Prod.ext h1 h2))
            · exact Or.inr (Or.inr (Or.inr ⟨h1.symm, h2⟩))
          · exact Or.inr (Or.inr (Or.inl h1))
        rcases this with h1 | h1 | h1
        · exact Or.inl ⟨h', h1⟩
        · exact Or.inr (Or.inl h1)
        · exact Or.inr (Or.inr ⟨h', h1⟩)

theorem pairLt_trans {a b c : Nat × Nat} (h1 : pairLt a b = true) (h2 : pairLt b c = true) : pairLt a c = true := by
  unfold pairLt at *
  simp only [Bool.or_eq_true, Bool.and_eq_true, decide_eq_true_eq, beq_iff_eq] at *
  omega

theorem sorted_insertPair {x : Nat × Nat} {l : List (Nat × Nat)} (h : l.Pairwise fun a b => pairLt a b = true) :
    (insertPair x l).Pairwise fun a b => pairLt a b = true := by
  unfold insertPair
  split_ifs
  · exact h
  · rw [List.pairwise_append, List.pairwise_cons]
    refine ⟨h.filter _, ⟨fun y hy => (List.mem_filter.mp hy).2, h.filter _⟩, fun a ha b hb => ?_⟩
    have h1 := (List.mem_filter.mp ha).2
    rcases List.mem_cons.mp hb with rfl | hb
    · exact h1
    · exact pairLt_trans h1 (List.mem_filter.mp hb).2

theorem set_ok {g : Lookup} (h : g.Ok) (u deg : Nat) :
    (g.set u deg).Ok ∧ ∀ v, (g.set u deg).degree v = if v = u then some deg else g.degree v := by
  unfold Lookup.set
  cases hu : g.degree u with
  | none =>
    refine ⟨⟨sorted_insertPair h.sorted, fun dg v => ?_⟩, fun v => rfl⟩
    show (dg, v) ∈ insertPair (deg, u) g.order ↔ (if v = u then some deg else g.degree v) = some dg
    rw [mem_insertPair, h.mem]
    by_cases hv : v = u
    · subst hv
      rw [if_pos rfl, hu]
      simp [eq_comm]
    · rw [if_neg hv]
      simp [hv]
  | some old =>
    refine ⟨⟨sorted_insertPair (h.sorted.filter _), fun dg v => ?_⟩, fun v => rfl⟩
    show (dg, v) ∈ insertPair (deg, u) _ ↔ (if v = u then some deg else g.degree v) = some dg
    rw [mem_insertPair, List.mem_filter, h.mem]
    by_cases hv : v = u
    · subst hv
      rw [if_pos rfl, hu]
      simp only [Prod.mk.injEq, and_true, Option.some.injEq, ne_eq, decide_eq_true_eq]
      constructor
      · rintro (h1 | ⟨h1, h2⟩)
        · exact h1.symm
        · exact absurd h1.symm h2
      · intro h1; exact Or.inl h1.symm
    · rw [if_neg hv]
      simp [hv]

theorem erase_ok {g : Lookup} (h : g.Ok) (u : Nat) :
    (g.erase u).Ok ∧ ∀ v, (g.erase u).degree v = if v = u then none else g.degree v := by
  unfold Lookup.erase
  cases hu : g.degree u with
  | none =>
    refine ⟨h, fun v => ?_⟩
    by_cases hv : v = u
    · rw [if_pos hv, hv]; exact hu
    · rw [if_neg hv]
  | some old =>
    refine ⟨⟨h.sorted.filter _, fun dg v => ?_⟩, fun v => rfl⟩
    show (dg, v) ∈ List.filter _ _ ↔ (if v = u then none else g.degree v) = some dg
    rw [List.mem_filter, h.mem]
    by_cases hv : v = u
    · subst hv
      rw [if_pos rfl, hu]
      simp only [Prod.mk.injEq, and_true, Option.some.injEq, ne_eq, decide_eq_true_eq, reduceCtorEq, iff_false, not_and, not_not]
      exact fun e => e.symm
    · rw [if_neg hv]
      simp [hv]

theorem erase_all {g : Lookup} (h : g.Ok) (us : List Nat) :
    (us.foldl Lookup.erase g).Ok ∧ ∀ v, (us.foldl Lookup.erase g).degree v = if v ∈ us then none else g.degree v := by
  induction us generalizing g with
  | nil => exact ⟨h, by simp⟩
  | cons u us ih =>
    obtain ⟨e1, e2⟩ := erase_ok h u
    obtain ⟨i1, i2⟩ := ih e1
    refine ⟨i1, fun v => ?_⟩
    rw [List.foldl_cons, i2, e2]
    by_cases hv : v = u
    · simp [hv]
    · simp [hv]

theorem set_all {g : Lookup} (h : g.Ok) (f : Nat → Nat) (us : List Nat) :
    (us.foldl (fun g e => g.set e (f e)) g).Ok ∧
      ∀ v, (us.foldl (fun g e => g.set e (f e)) g).degree v = if v ∈ us then some (f v) else g.degree v := by
  induction us generalizing g with
  | nil => exact ⟨h, by simp⟩
  | cons u us ih =>
    obtain ⟨e1, e2⟩ := set_ok h u (f u)
    obtain ⟨i1, i2⟩ := ih e1
    refine ⟨i1, fun v => ?_⟩
    rw [List.foldl_cons, i2, e2]
    by_cases hv : v = u
    · simp [hv]
    · simp [hv]

/-- The lookup holds the degrees of the graph. -/
structure Degrees (d : Adj) (g : Lookup) : Prop where
  ok : g.Ok
  degree : ∀ v, g.degree v = if v ∈ d.keys then some (d.nb v).length else none

theorem startLookup_ok (d : Adj) : Degrees d (startLookup d) := by
  obtain ⟨h1, h2⟩ := set_all (g := ⟨fun _ => none, []⟩) ⟨List.Pairwise.nil, by simp⟩ (fun k => (d.nb k).length) d.keys
  exact ⟨h1, h2⟩

/-- The chosen vertex has the lowest degree. -/
theorem min_ok {d : Adj} {g : Lookup} (h : Degrees d g) (hne : d.keys ≠ []) :
    ∃ u, g.min = some u ∧ u ∈ d.keys ∧ ∀ v ∈ d.keys, (d.nb u).length ≤ (d.nb v).length := by
  obtain ⟨v, hv⟩ := List.exists_mem_of_ne_nil _ hne
  have hmem : ((d.nb v).length, v) ∈ g.order := by rw [h.ok.mem, h.degree, if_pos hv]
  cases ho : g.order with
  | nil => rw [ho] at hmem; simp at hmem
  | cons a l =>
    have ha : g.degree a.2 = some a.1 := by rw [← h.ok.mem, ho]; simp
    rw [h.degree] at ha
    split_ifs at ha with hk
    injection ha with ha
    refine ⟨a.2, by unfold Lookup.min; rw [ho]; rfl, hk, fun w hw => ?_⟩
    have hmw : ((d.nb w).length, w) ∈ g.order := by rw [h.ok.mem, h.degree, if_pos hw]
    have hs := h.ok.sorted
    rw [ho] at hmw hs
    rw [List.pairwise_cons] at hs
    rcases List.mem_cons.mp hmw with e | hmw
    · rw [← e]; exact Nat.le_refl _
    · have := hs.1 _ hmw
      unfold pairLt at this
      simp only [Bool.or_eq_true, Bool.and_eq_true, decide_eq_true_eq, beq_iff_eq] at this
      omega

end PGM.Ordering
