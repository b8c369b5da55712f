import Verif.TapRank.Spec
import Mathlib.Data.List.Basic
import Mathlib.Order.WellFounded
import Mathlib.Data.Prod.Lex
import Mathlib.Tactic.Push
import Mathlib.Tactic.Set

/-!
# The search for the distances: it ends, and the distances are the smallest weights of paths
-/

namespace PGM.TapRank

/-- A path in the graph of the code, with its weight. -/
inductive WPath (es : List Edge) (S : Nat → Prop) : Nat → Nat → Prop
  | start {v : Nat} (h : S v) : WPath es S v 0
  | step {e : Edge} {k : Nat} (h : WPath es S e.src k) (he : e ∈ es) : WPath es S e.tgt (k + e.weight)

theorem WPath.mono {es : List Edge} {S S' : Nat → Prop} (hs : ∀ v, S v → S' v) {v k : Nat} (h : WPath es S v k) :
    WPath es S' v k := by
  induction h with
  | start h => exact .start (hs _ h)
  | step _ he ih => exact .step ih he

/-- An edge is relaxed. -/
def Relaxed (d : Dist) (e : Edge) (a : Nat) : Prop := ∃ b, d e.tgt = some b ∧ b ≤ a + e.weight

/-- The invariant of the search. -/
structure Inv (es : List Edge) (S : Nat → Prop) (d : Dist) (pq : List (Nat × Nat)) : Prop where
  sound : ∀ v k, d v = some k → WPath es S v k
  start : ∀ v, S v → d v = some 0
  closed : ∀ e ∈ es, ∀ a, d e.src = some a → (a, e.src) ∈ pq ∨ Relaxed d e a

/-- The invariant while the out-edges `todo` of `u` are being processed. -/
structure InvAt (es : List Edge) (S : Nat → Prop) (u : Nat) (todo : List Edge) (d : Dist) (pq : List (Nat × Nat)) :
    Prop where
  sound : ∀ v k, d v = some k → WPath es S v k
  start : ∀ v, S v → d v = some 0
  closed : ∀ e ∈ es, ∀ a, d e.src = some a → (a, e.src) ∈ pq ∨ Relaxed d e a ∨ (e.src = u ∧ e ∈ todo)

theorem relaxEdge_inv {es : List Edge} {S : Nat → Prop} {u k : Nat} {e : Edge} {todo : List Edge}
    {s : Dist × List (Nat × Nat)} (he : e ∈ es) (hsrc : e.src = u) (hk : s.1 u = some k)
    (h : InvAt es S u (e :: todo) s.1 s.2) :
    InvAt es S u todo (relaxEdge s e).1 (relaxEdge s e).2 ∧ (relaxEdge s e).1 u = some k := by
  unfold relaxEdge
  rw [hsrc, hk]
  simp only
  by_cases hb : below (k + e.weight) (s.1 e.tgt) = true
  · rw [if_pos hb]
    have hne : e.tgt ≠ u := by
      intro e1
      rw [e1, hk] at hb
      simp only [below, decide_eq_true_eq] at hb
      omega
    have hval : ∀ v, (Function.update s.1 e.tgt (some (k + e.weight))) v =
        if v = e.tgt then some (k + e.weight) else s.1 v := fun v => Function.update_apply _ _ _ _
    generalize Function.update s.1 e.tgt (some (k + e.weight)) = d' at hval
    show InvAt es S u todo d' ((k + e.weight, e.tgt) :: s.2) ∧ d' u = some k
    refine ⟨⟨?_, ?_, ?_⟩, ?_⟩
    · intro v a hv
      rw [hval] at hv
      by_cases e1 : v = e.tgt
      · rw [if_pos e1] at hv
        cases hv
        rw [e1]
        refine .step ?_ he
        rw [hsrc]
        exact h.sound u k hk
      · rw [if_neg e1] at hv
        exact h.sound v a hv
    · intro v hv
      rw [hval]
      by_cases e1 : v = e.tgt
      · exfalso
        have := h.start v hv
        rw [e1] at this
        rw [this] at hb
        simp [below] at hb
      · rw [if_neg e1]; exact h.start v hv
    · intro f hf a ha
      rw [hval] at ha
      by_cases e1 : f.src = e.tgt
      · rw [if_pos e1] at ha
        cases ha
        left
        rw [e1]
        exact List.mem_cons_self
      · rw [if_neg e1] at ha
        rcases h.closed f hf a ha with h1 | ⟨b, h1, h2⟩ | ⟨h1, h2⟩
        · left; exact List.mem_cons_of_mem _ h1
        · right; left
          unfold Relaxed
          rw [hval]
          by_cases e2 : f.tgt = e.tgt
          · rw [if_pos e2]
            refine ⟨_, rfl, ?_⟩
            rw [e2] at h1
            rw [h1] at hb
            simp only [below, decide_eq_true_eq] at hb
            omega
          · rw [if_neg e2]; exact ⟨b, h1, h2⟩
        · rcases List.mem_cons.1 h2 with rfl | h2
          · right; left
            unfold Relaxed
            rw [hval, if_pos rfl]
            rw [h1, hk] at ha
            cases ha
            exact ⟨_, rfl, Nat.le_refl _⟩
          · right; right; exact ⟨h1, h2⟩
    · rw [hval, if_neg (Ne.symm hne)]; exact hk
  · rw [if_neg hb]
    refine ⟨⟨h.sound, h.start, ?_⟩, hk⟩
    intro f hf a ha
    rcases h.closed f hf a ha with h1 | h1 | ⟨h1, h2⟩
    · exact Or.inl h1
    · exact Or.inr (Or.inl h1)
    · rcases List.mem_cons.1 h2 with rfl | h2
      · right; left
        rw [h1, hk] at ha
        cases ha
        unfold Relaxed
        cases ht : s.1 f.tgt with
        | none => rw [ht] at hb; simp [below] at hb
        | some b =>
          rw [ht] at hb
          simp only [below, decide_eq_true_eq] at hb
          exact ⟨b, rfl, by omega⟩
      · right; right; exact ⟨h1, h2⟩

theorem relax_fold_inv {es : List Edge} {S : Nat → Prop} {u k : Nat} (l : List Edge) :
    ∀ (s : Dist × List (Nat × Nat)), (∀ e ∈ l, e ∈ es ∧ e.src = u) → s.1 u = some k → InvAt es S u l s.1 s.2 →
      InvAt es S u [] (l.foldl relaxEdge s).1 (l.foldl relaxEdge s).2 := by
  induction l with
  | nil => intro s _ _ h; exact h
  | cons e l ih =>
    intro s hl hk h
    obtain ⟨h1, h2⟩ := relaxEdge_inv (hl e List.mem_cons_self).1 (hl e List.mem_cons_self).2 hk h
    exact ih _ (fun f hf => hl f (List.mem_cons_of_mem _ hf)) h2 h1

theorem top_mem (x : Nat × Nat) (l : List (Nat × Nat)) : top x l ∈ x :: l := by
  unfold top
  induction l generalizing x with
  | nil => simp
  | cons y l ih =>
    rw [List.foldl_cons]
    rcases List.mem_cons.1 (ih (if pairLE x y then x else y)) with h | h
    · rw [h]
      split
      · exact List.mem_cons_self
      · exact List.mem_cons_of_mem _ List.mem_cons_self
    · exact List.mem_cons_of_mem _ (List.mem_cons_of_mem _ h)

/-- What one pass of the loop leaves. -/
theorem pop_inv {es : List Edge} {S : Nat → Prop} {d : Dist} {pq : List (Nat × Nat)} {m : Nat × Nat}
    (h : Inv es S d pq) (hm : d m.2 = some m.1) :
    Inv es S ((outEdges es m.2).foldl relaxEdge (d, pq.erase m)).1
      ((outEdges es m.2).foldl relaxEdge (d, pq.erase m)).2 := by
  have h0 : InvAt es S m.2 (outEdges es m.2) d (pq.erase m) := by
    refine ⟨h.sound, h.start, ?_⟩
    intro e he a ha
    rcases h.closed e he a ha with h1 | h1
    · by_cases e1 : (a, e.src) = m
      · right; right
        have : e.src = m.2 := by rw [← e1]
        exact ⟨this, by simp [outEdges, he, this]⟩
      · left
        exact (List.mem_erase_of_ne e1).2 h1
    · exact Or.inr (Or.inl h1)
  have h1 := relax_fold_inv (S := S) (k := m.1) (outEdges es m.2) (d, pq.erase m)
    (by intro e he; simpa [outEdges] using he) hm h0
  refine ⟨h1.sound, h1.start, ?_⟩
  intro e he a ha
  rcases h1.closed e he a ha with h2 | h2 | ⟨_, h2⟩
  · exact Or.inl h2
  · exact Or.inr h2
  · simp at h2

theorem stale_inv {es : List Edge} {S : Nat → Prop} {d : Dist} {pq : List (Nat × Nat)} {m : Nat × Nat}
    (h : Inv es S d pq) (hm : d m.2 ≠ some m.1) : Inv es S d (pq.erase m) := by
  refine ⟨h.sound, h.start, ?_⟩
  intro e he a ha
  rcases h.closed e he a ha with h1 | h1
  · left
    refine (List.mem_erase_of_ne ?_).2 h1
    intro e1
    apply hm
    rw [← e1]
    exact ha
  · exact Or.inr h1

theorem loop_inv {es : List Edge} {S : Nat → Prop} : ∀ (fuel : Nat) (pq : List (Nat × Nat)) (d r : Dist),
    Inv es S d pq → dijkstraLoop es fuel pq d = some r → Inv es S r [] := by
  intro fuel
  induction fuel with
  | zero =>
    intro pq d r h hr
    cases pq with
    | nil => simp only [dijkstraLoop, Option.some.injEq] at hr; subst hr; exact h
    | cons x l => simp [dijkstraLoop] at hr
  | succ n ih =>
    intro pq d r h hr
    cases pq with
    | nil => simp only [dijkstraLoop, Option.some.injEq] at hr; subst hr; exact h
    | cons x l =>
      simp only [dijkstraLoop] at hr
      by_cases hm : d (top x l).2 = some (top x l).1
      · rw [if_pos hm] at hr
        exact ih _ _ _ (pop_inv h hm) hr
      · rw [if_neg hm] at hr
        exact ih _ _ _ (stale_inv h hm) hr

theorem Inv.le {es : List Edge} {S : Nat → Prop} {d : Dist} (h : Inv es S d []) {v k : Nat} (hp : WPath es S v k) :
    ∃ b, d v = some b ∧ b ≤ k := by
  induction hp with
  | start hs => exact ⟨0, h.start _ hs, Nat.le_refl _⟩
  | @step e k _ he ih =>
    obtain ⟨a, ha, hle⟩ := ih
    rcases h.closed e he a ha with h1 | ⟨b, h1, h2⟩
    · simp at h1
    · exact ⟨b, h1, by omega⟩

/-! ## The loop ends -/

/-- The number of nodes without distance. -/
def unset (n : Nat) (d : Dist) : Nat := ((List.range n).filter (fun v => (d v).isNone)).length
/-- The sum of the distances. -/
def total (n : Nat) (d : Dist) : Nat := ((List.range n).map (fun v => (d v).getD 0)).sum

/-- The distances have become smaller. -/
def Smaller (n : Nat) (d' d : Dist) : Prop := unset n d' < unset n d ∨ (unset n d' = unset n d ∧ total n d' < total n d)

theorem Smaller.trans {n : Nat} {a b c : Dist} (h1 : Smaller n a b) (h2 : Smaller n b c) : Smaller n a c := by
  unfold Smaller at *; omega

theorem filter_update (l : List Nat) (hl : l.Nodup) (d : Dist) (t x : Nat) :
    (l.filter (fun v => (Function.update d t (some x) v).isNone)).length + (if t ∈ l ∧ d t = none then 1 else 0) =
      (l.filter (fun v => (d v).isNone)).length := by
  induction l with
  | nil => simp
  | cons y l ih =>
    have hnd := List.nodup_cons.1 hl
    specialize ih hnd.2
    by_cases e : y = t
    · subst e
      have hm : ¬ (y ∈ l ∧ d y = none) := fun h => hnd.1 h.1
      rw [if_neg hm] at ih
      rw [List.filter_cons, List.filter_cons]
      simp only [Function.update_self, Option.isNone_some, Bool.false_eq_true, if_false]
      cases hd : d y with
      | none => simp; omega
      | some b => simp; omega
    · rw [List.filter_cons, List.filter_cons]
      have : Function.update d t (some x) y = d y := Function.update_of_ne e _ _
      rw [this]
      have hmem : (t ∈ y :: l ∧ d t = none) ↔ (t ∈ l ∧ d t = none) := by
        simp [Ne.symm e]
      simp only [hmem]
      split
      · simp only [List.length_cons]; omega
      · exact ih

theorem sum_update (l : List Nat) (hl : l.Nodup) (d : Dist) (t x b : Nat) (hb : d t = some b) :
    (l.map (fun v => (Function.update d t (some x) v).getD 0)).sum + (if t ∈ l then b else 0) =
      (l.map (fun v => (d v).getD 0)).sum + (if t ∈ l then x else 0) := by
  induction l with
  | nil => simp
  | cons y l ih =>
    have hnd := List.nodup_cons.1 hl
    specialize ih hnd.2
    simp only [List.map_cons, List.sum_cons]
    by_cases e : y = t
    · subst e
      rw [if_neg hnd.1, if_neg hnd.1] at ih
      rw [if_pos List.mem_cons_self, if_pos List.mem_cons_self]
      simp only [Function.update_self, Option.getD_some, hb]
      omega
    · have : Function.update d t (some x) y = d y := Function.update_of_ne e _ _
      rw [this]
      have hmem : (t ∈ y :: l) ↔ t ∈ l := by simp [Ne.symm e]
      simp only [hmem]
      omega

theorem relaxEdge_smaller {n : Nat} (s : Dist × List (Nat × Nat)) (e : Edge) (he : e.tgt < n) :
    relaxEdge s e = s ∨ Smaller n (relaxEdge s e).1 s.1 := by
  unfold relaxEdge
  cases hs : s.1 e.src with
  | none => left; rfl
  | some a =>
    simp only
    by_cases hb : below (a + e.weight) (s.1 e.tgt) = true
    · rw [if_pos hb]
      right
      unfold Smaller unset total
      have h1 := filter_update (List.range n) List.nodup_range s.1 e.tgt (a + e.weight)
      cases ht : s.1 e.tgt with
      | none =>
        rw [if_pos ⟨List.mem_range.2 he, ht⟩] at h1
        left
        simp only
        omega
      | some b =>
        have h2 := sum_update (List.range n) List.nodup_range s.1 e.tgt (a + e.weight) b ht
        rw [if_pos (List.mem_range.2 he), if_pos (List.mem_range.2 he)] at h2
        rw [if_neg (by simp [ht])] at h1
        rw [ht] at hb
        simp only [below, decide_eq_true_eq] at hb
        right
        simp only
        omega
    · left; rw [if_neg hb]

theorem fold_smaller {n : Nat} (l : List Edge) : ∀ (s : Dist × List (Nat × Nat)), (∀ e ∈ l, e.tgt < n) →
    l.foldl relaxEdge s = s ∨ Smaller n (l.foldl relaxEdge s).1 s.1 := by
  induction l with
  | nil => intro s _; left; rfl
  | cons e l ih =>
    intro s hl
    rw [List.foldl_cons]
    have h1 := relaxEdge_smaller s e (hl e List.mem_cons_self)
    have h2 := ih (relaxEdge s e) (fun f hf => hl f (List.mem_cons_of_mem _ hf))
    rcases h1 with h1 | h1
    · rw [h1] at h2 ⊢; exact h2
    · rcases h2 with h2 | h2
      · right; rw [h2]; exact h1
      · right; exact h2.trans h1

/-- The loop ends for every queue. -/
theorem loop_ends {es : List Edge} {n : Nat} (hes : ∀ e ∈ es, e.tgt < n) :
    ∀ (x y z : Nat) (pq : List (Nat × Nat)) (d : Dist), unset n d = x → total n d = y → pq.length = z →
      ∃ fuel r, dijkstraLoop es fuel pq d = some r := by
  intro x
  induction x using Nat.strong_induction_on with
  | _ x ihx =>
  intro y
  induction y using Nat.strong_induction_on with
  | _ y ihy =>
  intro z
  induction z using Nat.strong_induction_on with
  | _ z ihz =>
  intro pq d hx hy hz
  cases pq with
  | nil => exact ⟨0, d, by simp [dijkstraLoop]⟩
  | cons p l =>
    have hlen : ((p :: l).erase (top p l)).length < z := by
      rw [List.length_erase_of_mem (top_mem p l)]
      simp only [List.length_cons] at hz ⊢
      omega
    by_cases hm : d (top p l).2 = some (top p l).1
    · have key : ∃ fuel r, dijkstraLoop es fuel
          ((outEdges es (top p l).2).foldl relaxEdge (d, (p :: l).erase (top p l))).2
          ((outEdges es (top p l).2).foldl relaxEdge (d, (p :: l).erase (top p l))).1 = some r := by
        rcases fold_smaller (n := n) (outEdges es (top p l).2) (d, (p :: l).erase (top p l))
          (by intro e he; exact hes e (by simp [outEdges] at he; exact he.1)) with h | h
        · rw [h]
          exact ihz _ hlen _ d hx hy rfl
        · rcases h with h | ⟨h1, h2⟩
          · exact ihx _ (hx ▸ h) _ _ _ _ rfl rfl rfl
          · exact ihy _ (hy ▸ h2) _ _ _ (h1.trans hx) rfl rfl
      obtain ⟨fuel, r, hr⟩ := key
      refine ⟨fuel + 1, r, ?_⟩
      simp only [dijkstraLoop]
      rw [if_pos hm]
      exact hr
    · obtain ⟨fuel, r, hr⟩ := ihz _ hlen _ d hx hy rfl
      refine ⟨fuel + 1, r, ?_⟩
      simp only [dijkstraLoop]
      rw [if_neg hm]
      exact hr

theorem loop_more {es : List Edge} : ∀ (fuel : Nat) (pq : List (Nat × Nat)) (d r : Dist) (k : Nat),
    dijkstraLoop es fuel pq d = some r → dijkstraLoop es (fuel + k) pq d = some r := by
  intro fuel
  induction fuel with
  | zero =>
    intro pq d r k h
    cases pq with
    | nil => simpa [dijkstraLoop] using h
    | cons x l => simp [dijkstraLoop] at h
  | succ n ih =>
    intro pq d r k h
    cases pq with
    | nil => simpa [dijkstraLoop] using h
    | cons x l =>
      rw [Nat.succ_add]
      simp only [dijkstraLoop] at h ⊢
      by_cases hm : d (top x l).2 = some (top x l).1
      · rw [if_pos hm] at h ⊢; exact ih _ _ _ _ h
      · rw [if_neg hm] at h ⊢; exact ih _ _ _ _ h

theorem dijkstra_ends {es : List Edge} {n : Nat} (hes : ∀ e ∈ es, e.tgt < n) (v : Nat) (d : Dist) :
    ∃ N r, ∀ fuel, N ≤ fuel → dijkstra es fuel v d = some r := by
  obtain ⟨N, r, h⟩ := loop_ends hes _ _ _ [(0, v)] (Function.update d v (some 0)) rfl rfl rfl
  refine ⟨N, r, fun fuel hf => ?_⟩
  obtain ⟨k, rfl⟩ := Nat.exists_eq_add_of_le hf
  exact loop_more _ _ _ _ _ h

theorem fold_ends {es : List Edge} {n : Nat} (hes : ∀ e ∈ es, e.tgt < n) (src : Nat → Bool) (l : List Nat) :
    ∀ d : Dist, ∃ N r, ∀ fuel, N ≤ fuel → l.foldl (searchStep src es fuel) (some d) = some r := by
  induction l with
  | nil => intro d; exact ⟨0, d, fun _ _ => rfl⟩
  | cons v l ih =>
    intro d
    by_cases hv : src v = true
    · obtain ⟨N, r, h⟩ := dijkstra_ends hes v d
      obtain ⟨N', r', h'⟩ := ih r
      refine ⟨max N N', r', fun fuel hf => ?_⟩
      rw [List.foldl_cons]
      have : searchStep src es fuel (some d) v = some r := by
        simp only [searchStep, hv, if_true]
        exact h fuel (by omega)
      rw [this]
      exact h' fuel (by omega)
    · obtain ⟨N', r', h'⟩ := ih d
      refine ⟨N', r', fun fuel hf => ?_⟩
      rw [List.foldl_cons]
      have : searchStep src es fuel (some d) v = some d := by
        simp only [searchStep, hv, Bool.false_eq_true, if_false]
      rw [this]
      exact h' fuel hf

/-- The searches end. -/
theorem distances_end {es : List Edge} {n : Nat} (hes : ∀ e ∈ es, e.tgt < n) (src : Nat → Bool) :
    ∃ N r, ∀ fuel, N ≤ fuel → distances src n es fuel = some r := fold_ends hes src _ _

theorem start_inv {es : List Edge} {S : Nat → Prop} {d : Dist} (h : Inv es S d []) (v : Nat) :
    Inv es (fun w => S w ∨ w = v) (Function.update d v (some 0)) [(0, v)] := by
  have hval : ∀ w, (Function.update d v (some 0)) w = if w = v then some 0 else d w := fun w => Function.update_apply _ _ _ _
  refine ⟨?_, ?_, ?_⟩
  · intro w k hw
    rw [hval] at hw
    by_cases e : w = v
    · rw [if_pos e] at hw
      cases hw
      exact .start (Or.inr e)
    · rw [if_neg e] at hw
      exact (h.sound w k hw).mono (fun _ => Or.inl)
  · intro w hw
    rw [hval]
    by_cases e : w = v
    · rw [if_pos e]
    · rw [if_neg e]
      exact h.start w (hw.resolve_right e)
  · intro e he a ha
    rw [hval] at ha
    by_cases e1 : e.src = v
    · rw [if_pos e1] at ha
      cases ha
      left
      rw [e1]
      exact List.mem_cons_self
    · rw [if_neg e1] at ha
      right
      rcases h.closed e he a ha with h1 | ⟨b, h1, h2⟩
      · simp at h1
      · unfold Relaxed
        rw [hval]
        by_cases e2 : e.tgt = v
        · rw [if_pos e2]; exact ⟨0, rfl, by omega⟩
        · rw [if_neg e2]; exact ⟨b, h1, h2⟩

theorem fold_none (src : Nat → Bool) (es : List Edge) (fuel : Nat) (l : List Nat) :
    l.foldl (searchStep src es fuel) none = none := by
  induction l with
  | nil => rfl
  | cons v l ih => rw [List.foldl_cons]; exact ih

theorem fold_inv {es : List Edge} (src : Nat → Bool) (fuel : Nat) (l : List Nat) : ∀ (S : Nat → Prop) (d r : Dist),
    Inv es S d [] → l.foldl (searchStep src es fuel) (some d) = some r →
    Inv es (fun w => S w ∨ (w ∈ l ∧ src w = true)) r [] := by
  induction l with
  | nil =>
    intro S d r h hr
    simp only [List.foldl_nil, Option.some.injEq] at hr
    subst hr
    simpa using h
  | cons v l ih =>
    intro S d r h hr
    rw [List.foldl_cons] at hr
    by_cases hv : src v = true
    · simp only [searchStep, hv, if_true] at hr
      cases hd : dijkstra es fuel v d with
      | none => rw [hd, fold_none] at hr; cases hr
      | some d' =>
        rw [hd] at hr
        have h1 := loop_inv fuel _ _ _ (start_inv h v) hd
        have h2 := ih _ _ _ h1 hr
        have : (fun w => (S w ∨ w = v) ∨ (w ∈ l ∧ src w = true)) = (fun w => S w ∨ (w ∈ v :: l ∧ src w = true)) := by
          funext w
          apply propext
          constructor
          · rintro ((h | rfl) | h)
            · exact Or.inl h
            · exact Or.inr ⟨List.mem_cons_self, hv⟩
            · exact Or.inr ⟨List.mem_cons_of_mem _ h.1, h.2⟩
          · rintro (h | ⟨h, h'⟩)
            · exact Or.inl (Or.inl h)
            · rcases List.mem_cons.1 h with rfl | h
              · exact Or.inl (Or.inr rfl)
              · exact Or.inr ⟨h, h'⟩
        rw [this] at h2
        exact h2
    · have e : searchStep src es fuel (some d) v = some d := by
        simp only [searchStep, hv, Bool.false_eq_true, if_false]
      rw [e] at hr
      have h2 := ih _ _ _ h hr
      have : (fun w => S w ∨ (w ∈ l ∧ src w = true)) = (fun w => S w ∨ (w ∈ v :: l ∧ src w = true)) := by
        funext w
        apply propext
        constructor
        · rintro (h | h)
          · exact Or.inl h
          · exact Or.inr ⟨List.mem_cons_of_mem _ h.1, h.2⟩
        · rintro (h | ⟨h, h'⟩)
          · exact Or.inl h
          · rcases List.mem_cons.1 h with rfl | h
            · exact absurd h' hv
            · exact Or.inr ⟨h, h'⟩
      rw [this] at h2
      exact h2

/-- The distances are the smallest weights of paths from sources. -/
theorem distances_correct {es : List Edge} {src : Nat → Bool} {n fuel : Nat} {d : Dist}
    (h : distances src n es fuel = some d) :
    (∀ v k, d v = some k ↔ (WPath es (fun w => w < n ∧ src w = true) v k ∧
      ∀ k', WPath es (fun w => w < n ∧ src w = true) v k' → k ≤ k')) ∧
    (∀ v, d v = none ↔ ∀ k, ¬ WPath es (fun w => w < n ∧ src w = true) v k) := by
  have h0 : Inv es (fun _ => False) (fun _ => none) [] := ⟨by simp, by simp, by simp⟩
  have h1 := fold_inv src fuel (List.range n) _ _ _ h0 h
  have e : (fun w => False ∨ (w ∈ List.range n ∧ src w = true)) = (fun w => w < n ∧ src w = true) := by
    funext w; simp
  rw [e] at h1
  constructor
  · intro v k
    constructor
    · intro hv
      refine ⟨h1.sound v k hv, fun k' hk' => ?_⟩
      obtain ⟨b, hb, hle⟩ := h1.le hk'
      rw [hv] at hb
      cases hb
      exact hle
    · rintro ⟨hp, hmin⟩
      obtain ⟨b, hb, hle⟩ := h1.le hp
      have := hmin b (h1.sound v b hb)
      rw [hb]
      congr 1
      omega
  · intro v
    constructor
    · intro hv k hp
      obtain ⟨b, hb, _⟩ := h1.le hp
      rw [hv] at hb
      cases hb
    · intro hv
      cases hd : d v with
      | none => rfl
      | some b => exact absurd (h1.sound v b hd) (hv b)

end PGM.TapRank
