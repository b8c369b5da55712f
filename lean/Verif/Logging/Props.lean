import Verif.Logging.Spec
import Mathlib.Algebra.Order.Ring.Rat
import Mathlib.Tactic.Linarith
import Mathlib.Data.List.Induction

/-!
# C64: the information about a calculation counts everything once, for every schedule of the threads
-/

namespace PGM.Logging

variable {R : Type} [Ring R] [LinearOrder R]

/-! ## Lemmas: reports -/

theorem foldr_max_perm {l l' : List R} (h : l.Perm l') : l.foldr max 0 = l'.foldr max 0 := by
  induction h with
  | nil => rfl
  | cons x _ ih => simp [ih]
  | swap x y l => simp [max_left_comm]
  | trans _ _ ih1 ih2 => exact ih1.trans ih2

theorem foldr_max_nonneg : ∀ l : List R, (0 : R) ≤ l.foldr max 0
  | [] => le_refl _
  | _ :: l => le_trans (foldr_max_nonneg l) (le_max_right _ _)

theorem foldr_max_append (a b : List R) : (a ++ b).foldr max 0 = max (a.foldr max 0) (b.foldr max 0) := by
  induction a with
  | nil => simp [foldr_max_nonneg]
  | cons x a ih => simp [ih, max_assoc]

theorem expected_perm (tag : Event) {l l' : List R} (h : l.Perm l') : expected tag l = expected tag l' := by
  have hn : l = [] ↔ l' = [] := ⟨fun e => by subst e; exact h.nil_eq.symm, fun e => by subst e; exact h.eq_nil⟩
  unfold expected
  by_cases h0 : l = []
  · rw [if_pos h0, if_pos (hn.mp h0)]
  · rw [if_neg h0, if_neg fun h1 => h0 (hn.mpr h1), foldr_max_perm h, h.sum_eq]

/-- Logging one value. -/
theorem log_expected (d : Data R) (m : Event → List R) (hd : ∀ t, d t = expected t (m t)) (tag : Event) (v : R) (t : Event) :
    log d tag v t = expected t (if tag = t then v :: m t else m t) := by
  by_cases ht : tag = t
  · subst ht
    rw [if_pos rfl]
    have h1 := hd tag
    generalize m tag = l at h1 ⊢
    by_cases h0 : l = []
    · cases tag <;> simp [log, h1, expected, h0]
    · cases tag <;> simp [log, h1, expected, h0, add_comm]
  · rw [if_neg ht, ← hd]
    cases tag <;> simp only [log] <;> first | rfl | rw [Function.update_of_ne (Ne.symm ht)]

theorem mergeStep_other (src dst : Data R) {tag t : Event} (h : tag ≠ t) : mergeStep src dst tag t = dst t := by
  unfold mergeStep
  cases src tag with
  | none => rfl
  | some v => cases tag <;> simp only [log] <;> first | rfl | rw [Function.update_of_ne (Ne.symm h)]

theorem mergeStep_at (src dst : Data R) (a b : Event → List R) (hs : ∀ t, src t = expected t (a t)) (t : Event) (hd : dst t = expected t (b t)) :
    mergeStep src dst t t = expected t (a t ++ b t) := by
  unfold mergeStep
  rw [hs t]
  by_cases ha : a t = []
  · simp [expected, ha] at hd ⊢
    exact hd
  · generalize b t = l at hd ⊢
    generalize a t = k at ha ⊢
    by_cases hb : l = []
    · subst hb
      cases t <;> simp [expected, ha, log, hd, foldr_max_nonneg]
    · have := foldr_max_append k l
      rw [List.foldr_append] at this
      cases t <;> simp [expected, ha, hb, log, hd, this, add_comm]

theorem merge_fold (src : Data R) (a b : Event → List R) (hs : ∀ t, src t = expected t (a t)) : ∀ (es : List Event), es.Nodup → ∀ dst : Data R, (∀ t, dst t = expected t (b t)) →
    ∀ t, es.foldl (mergeStep src) dst t = if t ∈ es then expected t (a t ++ b t) else expected t (b t) := by
  intro es
  induction es using List.reverseRecOn with
  | nil => intro _ dst hd t; simpa using hd t
  | append_singleton es e ih =>
    intro hn dst hd t
    rw [List.nodup_append] at hn
    rw [List.foldl_append, List.foldl_cons, List.foldl_nil]
    have hne : e ∉ es := fun h => hn.2.2 e h e (by simp) rfl
    by_cases ht : e = t
    · subst ht
      rw [mergeStep_at src _ a b hs e (by rw [ih hn.1 dst hd e, if_neg hne])]
      simp
    · rw [mergeStep_other _ _ ht, ih hn.1 dst hd t]
      simp [Ne.symm ht]

theorem events_nodup : events.Nodup := by decide

theorem mem_events (t : Event) : t ∈ events := by cases t <;> decide

theorem merge_expected (src dst : Data R) (a b : Event → List R) (hs : ∀ t, src t = expected t (a t)) (hd : ∀ t, dst t = expected t (b t)) (t : Event) :
    merge src dst t = expected t (a t ++ b t) := by
  unfold merge
  rw [merge_fold src a b hs events events_nodup dst hd t, if_pos (mem_events t)]

/-! ## Lemmas: threads -/

/-- The reports that belong to values. -/
def reports (m : Event → List R) : Data R := fun t => expected t (m t)

/-- Values of all children. -/
def inChildren (G : List (Nat × (Event → List R))) (t : Event) : List R := G.flatMap fun c => c.2 t

/-- Every logger reports what was logged to it, and together they have everything. -/
def Inv (s : State R) (all : Event → List R) : Prop :=
  ∃ (M : Event → List R) (G : List (Nat × (Event → List R))), s.main = reports M ∧ s.children = G.map (fun c => (c.1, reports c.2)) ∧ (G.map (·.1)).Nodup ∧
    ∀ t, (M t ++ inChildren G t).Perm (all t)

theorem lookup_split {α : Type} : ∀ (G : List (Nat × α)) (i : Nat) (d : α), (G.map (·.1)).Nodup → G.lookup i = some d → G.Perm ((i, d) :: G.filter fun c => c.1 ≠ i)
  | [], _, _, _, h => by simp at h
  | (j, e) :: G, i, d, hn, h => by
    rw [List.map_cons, List.nodup_cons] at hn
    by_cases hij : i = j
    · subst hij
      simp only [List.lookup_cons_self, Option.some.injEq] at h
      subst h
      have : G.filter (fun c => c.1 ≠ i) = G := by
        rw [List.filter_eq_self]
        intro c hc
        simp only [ne_eq, decide_not, Bool.not_eq_eq_eq_not, Bool.not_true, decide_eq_false_iff_not]
        exact fun h0 => hn.1 (List.mem_map.mpr ⟨c, hc, h0⟩)
      rw [List.filter_cons_of_neg (by simp), this]
    · rw [List.lookup_cons] at h
      have hb : (i == j) = false := by simpa using hij
      rw [hb] at h
      have ih := lookup_split G i d hn.2 h
      rw [List.filter_cons_of_pos (by simpa using Ne.symm hij)]
      exact (List.Perm.cons _ ih).trans (List.Perm.swap _ _ _)

theorem lookup_map {α β : Type} (f : α → β) : ∀ (G : List (Nat × α)) (i : Nat), (G.map fun c => (c.1, f c.2)).lookup i = (G.lookup i).map f
  | [], _ => rfl
  | (j, e) :: G, i => by
    rw [List.map_cons, List.lookup_cons, List.lookup_cons, lookup_map f G i]
    cases i == j <;> rfl

theorem filter_map_keys {α β : Type} (f : α → β) (G : List (Nat × α)) (i : Nat) :
    (G.map fun c => (c.1, f c.2)).filter (fun c => c.1 ≠ i) = (G.filter fun c => c.1 ≠ i).map fun c => (c.1, f c.2) := by
  rw [List.filter_map]
  rfl

theorem filter_keys {α : Type} {G : List (Nat × α)} (hn : (G.map (·.1)).Nodup) (i : Nat) : ((G.filter fun c => c.1 ≠ i).map (·.1)).Nodup ∧ i ∉ (G.filter fun c => c.1 ≠ i).map (·.1) := by
  refine ⟨hn.sublist (List.filter_sublist.map _), ?_⟩
  simp

theorem lookup_none {α : Type} : ∀ {G : List (Nat × α)} {i : Nat}, G.lookup i = none → i ∉ G.map (·.1)
  | [], _, _ => by simp
  | (j, e) :: G, i, h => by
    rw [List.lookup_cons] at h
    cases hb : i == j with
    | true => rw [hb] at h; cases h
    | false =>
      rw [hb] at h
      have : i ≠ j := by simpa using hb
      simp only [List.map_cons, List.mem_cons, not_or]
      exact ⟨this, lookup_none h⟩

theorem step_inv {s s' : State R} {o : Op R} {all : Event → List R} (h : Inv s all) (ho : step s o = some s') (hc : ∀ i j, o ≠ .copy i j) :
    Inv s' fun t => all t ++ (valueOf t o).toList := by
  obtain ⟨M, G, h1, h2, h3, h4⟩ := h
  cases o with
  | create i =>
    simp only [step] at ho
    split_ifs at ho with hl
    cases ho
    rw [h2, lookup_map] at hl
    have hl : G.lookup i = none := by simpa using hl
    refine ⟨M, (i, fun _ => []) :: G, h1, ?_, ?_, ?_⟩
    · simp only [h2, List.map_cons]
      congr 1
    · rw [List.map_cons, List.nodup_cons]; exact ⟨lookup_none hl, h3⟩
    · intro t; simpa [valueOf, inChildren] using h4 t
  | child i tag v =>
    simp only [step] at ho
    rw [h2, lookup_map] at ho
    cases hl : G.lookup i with
    | none => simp [hl] at ho
    | some d =>
      simp only [hl, Option.map_some, Option.some.injEq] at ho
      subst ho
      have hp := lookup_split G i d h3 hl
      refine ⟨M, (i, fun t => if tag = t then v :: d t else d t) :: G.filter (fun c => c.1 ≠ i), h1, ?_, ?_, ?_⟩
      · simp only [List.map_cons]
        rw [filter_map_keys]
        congr 2
        funext t
        exact log_expected _ d (fun _ => rfl) tag v t
      · rw [List.map_cons, List.nodup_cons]; exact ⟨(filter_keys h3 i).2, (filter_keys h3 i).1⟩
      · intro t
        have h5 : (inChildren G t).Perm (d t ++ inChildren (G.filter fun c => c.1 ≠ i) t) := by
          have := List.Perm.flatMap_right (fun c : Nat × (Event → List R) => c.2 t) hp
          simpa [inChildren] using this
        have h6 : (all t).Perm (M t ++ (d t ++ inChildren (G.filter fun c => c.1 ≠ i) t)) := (h4 t).symm.trans (List.Perm.append_left _ h5)
        by_cases ht : tag = t
        · subst ht
          simp only [valueOf, if_true, Option.toList_some, inChildren, List.flatMap_cons]
          refine List.Perm.trans ?_ (List.perm_append_comm (l₁ := [v]))
          simp only [List.singleton_append, List.cons_append]
          exact List.perm_middle.trans (List.Perm.cons _ h6.symm)
        · simp only [valueOf, if_neg ht, Option.toList_none, List.append_nil, inChildren, List.flatMap_cons]
          exact h6.symm
  | main tag v =>
    simp only [step, Option.some.injEq] at ho
    subst ho
    refine ⟨fun t => if tag = t then v :: M t else M t, G, ?_, h2, h3, ?_⟩
    · funext t
      rw [h1]
      exact log_expected _ M (fun _ => rfl) tag v t
    · intro t
      by_cases ht : tag = t
      · subst ht
        simp only [valueOf, if_true, Option.toList_some, List.cons_append]
        exact (List.Perm.cons _ (h4 tag)).trans (List.perm_append_comm (l₁ := [v]))
      · simp only [valueOf, if_neg ht, Option.toList_none, List.append_nil]
        exact h4 t
  | destroy i =>
    simp only [step] at ho
    rw [h2, lookup_map] at ho
    cases hl : G.lookup i with
    | none => simp [hl] at ho
    | some d =>
      simp only [hl, Option.map_some, Option.some.injEq] at ho
      subst ho
      have hp := lookup_split G i d h3 hl
      refine ⟨fun t => d t ++ M t, G.filter (fun c => c.1 ≠ i), ?_, filter_map_keys _ _ _, (filter_keys h3 i).1, ?_⟩
      · funext t
        exact merge_expected _ _ d M (fun _ => rfl) (fun _ => by rw [h1]; rfl) t
      · intro t
        have h5 : (inChildren G t).Perm (d t ++ inChildren (G.filter fun c => c.1 ≠ i) t) := by
          have := List.Perm.flatMap_right (fun c : Nat × (Event → List R) => c.2 t) hp
          simpa [inChildren] using this
        simp only [valueOf, Option.toList_none, List.append_nil]
        refine List.Perm.trans ?_ (h4 t)
        refine List.Perm.trans ?_ (List.Perm.append_left _ h5.symm)
        rw [← List.append_assoc]
        exact List.Perm.append_right _ List.perm_append_comm
  | copy i j => exact absurd rfl (hc i j)

theorem run_inv : ∀ (ops : List (Op R)) {s s' : State R} {all : Event → List R}, Inv s all → run s ops = some s' → NoCopies ops → Inv s' fun t => all t ++ logged t ops
  | [], s, s', all, h, hr, _ => by
    simp only [run, Option.some.injEq] at hr
    subst hr
    simpa [logged] using h
  | o :: ops, s, s', all, h, hr, hc => by
    simp only [run] at hr
    cases ho : step s o with
    | none => rw [ho] at hr; cases hr
    | some s1 =>
      rw [ho] at hr
      have h1 := step_inv h ho fun i j e => hc i j (by rw [e]; exact List.mem_cons_self)
      have h2 := run_inv ops h1 hr fun i j hm => hc i j (List.mem_cons_of_mem _ hm)
      have : (fun t => all t ++ logged t (o :: ops)) = fun t => (all t ++ (valueOf t o).toList) ++ logged t ops := by
        funext t
        rw [List.append_assoc]
        congr 1
        unfold logged
        rw [List.filterMap_cons]
        cases valueOf t o <;> rfl
      rw [this]
      exact h2

/-! ## Theorems: reports -/

/-- **C64.** For every interleaving of the operations of any number of threads: once the loggers of all threads are gone, the common report says about every event the total (for numbers of iterations: the
maximum) of everything that was logged by any of them, and says nothing about events that were not logged. -/
theorem thread_reports (ops : List (Op R)) (s : State R) (hr : run ⟨empty, []⟩ ops = some s) (hc : NoCopies ops) (hd : s.children = []) (tag : Event) :
    s.main tag = expected tag (logged tag ops) := by
  have h0 : Inv (⟨empty, []⟩ : State R) fun _ => [] := ⟨fun _ => [], [], rfl, rfl, by simp, fun t => by simp [inChildren]⟩
  obtain ⟨M, G, h1, h2, _, h4⟩ := run_inv ops h0 hr hc
  rw [hd] at h2
  have hG : G = [] := by simpa using h2.symm
  subst hG
  rw [h1]
  exact expected_perm tag (by simpa [inChildren] using h4 tag)

/-- **C64, schedule.** Two schedules in which the same values are logged, in whatever order and by whichever threads, give the same report. -/
theorem report_of_schedule (ops ops' : List (Op R)) (s s' : State R) (hr : run ⟨empty, []⟩ ops = some s) (hr' : run ⟨empty, []⟩ ops' = some s') (hc : NoCopies ops) (hc' : NoCopies ops')
    (hd : s.children = []) (hd' : s'.children = []) (hp : ∀ tag, (logged tag ops).Perm (logged tag ops')) : s.main = s'.main := by
  funext tag
  rw [thread_reports ops s hr hc hd, thread_reports ops' s' hr' hc' hd', expected_perm tag (hp tag)]

/-- **C64, false for copies.** A copied logger of a thread adds its values a second time when it is destroyed. The library makes no such copies. -/
theorem copy_counts_twice : ∃ (ops : List (Op ℚ)) (s : State ℚ), run ⟨empty, []⟩ ops = some s ∧ s.children = [] ∧ logged .prepare ops = [1] ∧ s.main .prepare = some 2 :=
  ⟨[.create 0, .child 0 .prepare 1, .copy 0 1, .destroy 0, .destroy 1], _, rfl, rfl, rfl, by
    show some (((0 : ℚ) + (0 + 1)) + (0 + 1)) = some 2
    norm_num⟩

/-! ## Timers -/

/-- What the timers still have to log. -/
def pending (t : Timers) : List Nat := t.filterMap (·.2)

theorem pending_split {t : Timers} (hn : (t.map (·.1)).Nodup) {i : Nat} {v : Option Nat} (h : t.lookup i = some v) :
    (pending t).Perm (v.toList ++ pending (t.filter fun c => c.1 ≠ i)) := by
  have := (lookup_split t i v hn h).filterMap (·.2)
  unfold pending
  refine this.trans ?_
  rw [List.filterMap_cons]
  cases v <;> exact List.Perm.refl _

theorem pending_set (t : Timers) (i : Nat) (v : Option Nat) : pending (setTimer t i v) = v.toList ++ pending (t.filter fun c => c.1 ≠ i) := by
  unfold setTimer pending
  rw [List.filterMap_cons]
  cases v <;> rfl

theorem set_keys {t : Timers} (hn : (t.map (·.1)).Nodup) (i : Nat) (v : Option Nat) : ((setTimer t i v).map (·.1)).Nodup := by
  unfold setTimer
  rw [List.map_cons, List.nodup_cons]
  exact ⟨(filter_keys hn i).2, (filter_keys hn i).1⟩

theorem stopped_perm (l : List Nat) (v : Option Nat) : stopped l v = v.toList ++ l := by cases v <;> rfl

/-- Setting an existing timer to `none` takes out its measurement. -/
theorem pending_clear {t : Timers} (hn : (t.map (·.1)).Nodup) {i : Nat} {v : Option Nat} (h : t.lookup i = some v) : (pending t).Perm (v.toList ++ pending (setTimer t i none)) := by
  rw [pending_set]
  exact pending_split hn h

def TInv (s : TState) (all : List Nat) : Prop := (s.timers.map (·.1)).Nodup ∧ (s.logged ++ pending s.timers).Perm all

theorem set_lookup (t : Timers) (i : Nat) (v : Option Nat) : (setTimer t i v).lookup i = some v := by simp [setTimer]

theorem tstep_inv {s s' : TState} {o : TOp} {all : List Nat} (h : TInv s all) (ho : tstep s o = some s') : TInv s' (all ++ started [o]) := by
  obtain ⟨hn, hp⟩ := h
  cases o with
  | start i m =>
    simp only [tstep] at ho
    split_ifs at ho with hl
    cases ho
    refine ⟨by rw [List.map_cons, List.nodup_cons]; exact ⟨lookup_none hl, hn⟩, ?_⟩
    show (s.logged ++ m :: pending s.timers).Perm (all ++ [m])
    exact (List.perm_middle.trans (List.Perm.cons m hp)).trans (List.perm_append_comm (l₁ := [m]))
  | idle i =>
    simp only [tstep] at ho
    split_ifs at ho with hl
    cases ho
    refine ⟨by rw [List.map_cons, List.nodup_cons]; exact ⟨lookup_none hl, hn⟩, ?_⟩
    simpa [started, pending] using hp
  | moved i j =>
    simp only [tstep] at ho
    cases hl : s.timers.lookup i with
    | none => simp [hl] at ho
    | some v =>
      simp only [hl] at ho
      split_ifs at ho with hj
      cases ho
      have hij : j ≠ i := by rintro rfl; rw [hl] at hj; cases hj
      refine ⟨?_, ?_⟩
      · rw [List.map_cons, List.nodup_cons]
        refine ⟨?_, set_keys hn i none⟩
        have := lookup_none hj
        simp only [setTimer, List.map_cons, List.mem_cons, not_or]
        exact ⟨hij, fun h0 => this ((List.filter_sublist.map _).subset h0)⟩
      · have h1 : pending ((j, v) :: setTimer s.timers i none) = v.toList ++ pending (setTimer s.timers i none) := by
          unfold pending
          rw [List.filterMap_cons]
          cases v <;> rfl
        rw [h1]
        have h2 := (pending_clear hn hl).symm
        have : started [TOp.moved i j] = [] := rfl
        rw [this, List.append_nil]
        exact (List.Perm.append_left _ h2).trans hp
  | assign i j =>
    simp only [tstep] at ho
    cases hl : s.timers.lookup j with
    | none => simp [hl] at ho
    | some w =>
      simp only [hl] at ho
      cases hi : (setTimer s.timers j none).lookup i with
      | none => simp [hi] at ho
      | some v =>
        simp only [hi, Option.some.injEq] at ho
        subst ho
        have k1 := set_keys hn j none
        have k2 := set_keys k1 j v
        refine ⟨set_keys k2 i none, ?_⟩
        have : started [TOp.assign i j] = [] := rfl
        rw [this, List.append_nil, stopped_perm]
        have e1 := pending_clear hn hl
        by_cases hij : i = j
        · subst hij
          have hv : v = none := by rw [set_lookup] at hi; exact (Option.some.inj hi).symm
          subst hv
          have e2 := pending_clear k1 (set_lookup s.timers i none)
          have e3 := pending_clear k2 (set_lookup (setTimer s.timers i none) i none)
          simp only [Option.toList_none, List.nil_append] at e2 e3
          have e4 : (pending (setTimer s.timers i none)).Perm (pending (setTimer (setTimer (setTimer s.timers i none) i none) i none)) := by
            exact e2.trans e3
          rw [List.append_assoc]
          refine List.Perm.trans (List.Perm.append_left _ (List.Perm.append_left _ e4.symm)) ?_
          refine List.Perm.trans ?_ ((List.Perm.append_left _ e1.symm).trans hp)
          rw [← List.append_assoc, ← List.append_assoc]
          exact List.Perm.append_right _ List.perm_append_comm
        · have hlk : (setTimer (setTimer s.timers j none) j v).lookup i = some v := by
            have hb : (i == j) = false := by simpa using hij
            have : ∀ (t : Timers), (t.filter fun c => c.1 ≠ j).lookup i = t.lookup i := by
              intro t
              induction t with
              | nil => rfl
              | cons c t ih =>
                obtain ⟨c1, c2⟩ := c
                by_cases hc : c1 = j
                · subst hc
                  rw [List.filter_cons_of_neg (by simp), ih, List.lookup_cons, hb]
                · rw [List.filter_cons_of_pos (by simpa using hc), List.lookup_cons, List.lookup_cons, ih]
            unfold setTimer at hi ⊢
            rw [List.lookup_cons, hb, this]
            exact hi
          have e2 := pending_clear k2 hlk
          have e3 := pending_clear k1 (set_lookup s.timers j none)
          simp only [Option.toList_none, List.nil_append] at e3
          have e4 : (pending (setTimer (setTimer s.timers j none) j v)).Perm (v.toList ++ pending (setTimer s.timers j none)) := by
            rw [pending_set]
            refine List.Perm.append_left _ ?_
            rw [pending_set (setTimer s.timers j none) j none] at e3
            exact e3.symm
          have e5 : (pending (setTimer (setTimer (setTimer s.timers j none) j v) i none)).Perm (pending (setTimer s.timers j none)) :=
            (List.perm_append_left_iff _).mp (e2.symm.trans e4)
          rw [List.append_assoc]
          refine List.Perm.trans (List.Perm.append_left _ (List.Perm.append_left _ e5)) ?_
          refine List.Perm.trans ?_ ((List.Perm.append_left _ e1.symm).trans hp)
          rw [← List.append_assoc, ← List.append_assoc]
          exact List.Perm.append_right _ List.perm_append_comm
  | stop i =>
    simp only [tstep] at ho
    cases hl : s.timers.lookup i with
    | none => simp [hl] at ho
    | some v =>
      simp only [hl, Option.some.injEq] at ho
      subst ho
      refine ⟨set_keys hn i none, ?_⟩
      have : started [TOp.stop i] = [] := rfl
      rw [this, List.append_nil, stopped_perm]
      refine List.Perm.trans ?_ ((List.Perm.append_left _ (pending_clear hn hl).symm).trans hp)
      rw [← List.append_assoc]
      exact List.Perm.append_right _ List.perm_append_comm
  | destroy i =>
    simp only [tstep] at ho
    cases hl : s.timers.lookup i with
    | none => simp [hl] at ho
    | some v =>
      simp only [hl, Option.some.injEq] at ho
      subst ho
      refine ⟨(filter_keys hn i).1, ?_⟩
      have : started [TOp.destroy i] = [] := rfl
      rw [this, List.append_nil, stopped_perm]
      refine List.Perm.trans ?_ ((List.Perm.append_left _ (pending_split hn hl).symm).trans hp)
      rw [← List.append_assoc]
      exact List.Perm.append_right _ List.perm_append_comm

theorem trun_inv : ∀ (ops : List TOp) {s s' : TState} {all : List Nat}, TInv s all → trun s ops = some s' → TInv s' (all ++ started ops)
  | [], s, s', all, h, hr => by
    simp only [trun, Option.some.injEq] at hr
    subst hr
    simpa [started] using h
  | o :: ops, s, s', all, h, hr => by
    simp only [trun] at hr
    cases ho : tstep s o with
    | none => rw [ho] at hr; cases hr
    | some s1 =>
      rw [ho] at hr
      have h2 := trun_inv ops (tstep_inv h ho) hr
      have : started (o :: ops) = started [o] ++ started ops := by
        unfold started
        rw [← List.filterMap_append, List.singleton_append]
      rw [this, ← List.append_assoc]
      exact h2

/-- **C64, timers.** However timers are moved, assigned and stopped: once all timers are gone, every measurement that was started has been logged exactly once. -/
theorem timers_once (ops : List TOp) (s : TState) (hr : trun ⟨[], []⟩ ops = some s) (hd : s.timers = []) : s.logged.Perm (started ops) := by
  have h0 : TInv ⟨[], []⟩ [] := ⟨by simp, List.Perm.refl _⟩
  have := (trun_inv ops h0 hr).2
  rw [hd] at this
  simpa [pending] using this

/-! ## Examples -/

/-- Two threads that log at the same time. -/
def twoThreads : List (Op ℚ) :=
  [.create 0, .create 1, .child 0 .prepare 1, .child 1 .prepare 2, .child 0 .maxIter 5, .child 1 .maxIter 3, .destroy 1, .child 0 .prepare 4, .destroy 0, .main .total 9]

example : ∃ s, run ⟨empty, []⟩ twoThreads = some s ∧ s.children = [] ∧ s.main .prepare = some 7 ∧ s.main .maxIter = some 5 ∧ s.main .copyModel = none := by
  have hc : NoCopies twoThreads := by simp [NoCopies, twoThreads]
  refine ⟨_, rfl, rfl, ?_, ?_, ?_⟩
  · rw [thread_reports twoThreads _ rfl hc rfl .prepare]
    show some ((1 : ℚ) + (2 + (4 + 0))) = some 7
    norm_num
  · rw [thread_reports twoThreads _ rfl hc rfl .maxIter]
    show some (max (5 : ℚ) (max 3 0)) = some 5
    norm_num
  · exact thread_reports twoThreads _ rfl hc rfl .copyModel

/-- A timer that is moved and assigned. -/
def movedTimer : List TOp := [.start 0 7, .moved 0 1, .start 2 8, .assign 1 2, .destroy 0, .destroy 1, .destroy 2]

example : ∃ s, trun ⟨[], []⟩ movedTimer = some s ∧ s.timers = [] ∧ s.logged.Perm [7, 8] :=
  ⟨_, rfl, rfl, timers_once movedTimer _ rfl rfl⟩

end PGM.Logging
