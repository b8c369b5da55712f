import Verif.TapOpt.Props

/-!
# Transformers whose controlled side is switched off (C25, C49)
-/

namespace PGM.TapOpt

variable {K : Type} [Field K] [LinearOrder K]

/-- The transformer `t` is at `x`, and was so in all calculations. -/
def Still (t : Nat) (x : Int) (s : St) : Prop := s.pos t = x ∧ ∀ p ∈ s.log, p t = x

/-- Updates only of transformers that are connected. -/
def OnlyConnected (C : Cfg K) (ups : List (Nat × Int)) : Prop := ∀ u ∈ ups, (C.T u.1).connected = true

theorem adjustOne_only (C : Cfg K) (srch : Search) (v : Volt K) (u i j : Nat) (s : St) :
    (adjustOne C srch v u i j s).1.pos = s.pos ∧ (adjustOne C srch v u i j s).1.log = s.log ∧
      ∀ a, (adjustOne C srch v u i j s).2 = .ok a → OnlyConnected C a.1 := by
  by_cases hc : (C.T u).connected = true
  · cases srch with
    | linear =>
      refine ⟨rfl, rfl, ?_⟩
      intro a ha
      simp only [adjustOne, Except.ok.injEq] at ha
      subst ha
      intro x hx
      simp only [adjustScan, hc, Bool.not_true, Bool.false_eq_true, if_false] at hx
      split_ifs at hx
      all_goals simp at hx
      all_goals (subst hx; exact hc)
    | binary =>
      simp only [adjustOne, adjustBs, hc, Bool.not_true, Bool.false_eq_true, if_false]
      split_ifs
      all_goals try (
        refine ⟨rfl, rfl, ?_⟩
        intro a ha
        simp only [Except.ok.injEq] at ha
        subst ha
        intro x hx
        simp at hx
        try (subst hx; exact hc))
      all_goals
        unfold adjustBsRest
        dsimp only
        split_ifs
        all_goals
          refine ⟨rfl, rfl, ?_⟩
          intro a ha
          cases ha
          try (
            intro x hx
            simp at hx
            subst hx
            exact hc)
  · have hc' : (C.T u).connected = false := by simpa using hc
    cases srch <;> simp only [adjustOne, adjustScan, adjustBs, hc', Bool.not_false, if_true] <;>
    · refine ⟨by first | trivial | rfl, by first | trivial | rfl, ?_⟩
      intro a ha
      simp only [Except.ok.injEq] at ha
      subst ha
      intro x hx
      simp at hx

theorem adjustGroup_only (C : Cfg K) (srch : Search) (v : Volt K) (i : Nat) : ∀ (l : List Nat) (j : Nat) (ups : List (Nat × Int)) (ch : Bool) (s : St), OnlyConnected C ups →
    (adjustGroup C srch v i l j ups ch s).1.pos = s.pos ∧ (adjustGroup C srch v i l j ups ch s).1.log = s.log ∧
      ∀ a, (adjustGroup C srch v i l j ups ch s).2 = .ok a → OnlyConnected C a.1 := by
  intro l
  induction l with
  | nil =>
    intro j ups ch s hu
    refine ⟨rfl, rfl, ?_⟩
    intro a ha
    simp only [adjustGroup, Except.ok.injEq] at ha
    subst ha
    exact hu
  | cons t l ih =>
    intro j ups ch s hu
    obtain ⟨h1, h2, h3⟩ := adjustOne_only C srch v t i j s
    rw [adjustGroup]
    generalize hr : adjustOne C srch v t i j s = r at h1 h2 h3
    obtain ⟨s1, e | a⟩ := r
    · exact ⟨h1, h2, by intro a ha; cases ha⟩
    · dsimp only at h1 h2 h3 ⊢
      obtain ⟨g1, g2, g3⟩ := ih (j + 1) (ups ++ a.1) (a.2 || ch) s1 (by
        intro x hx
        rcases List.mem_append.mp hx with hx | hx
        · exact hu x hx
        · exact h3 a rfl x hx)
      exact ⟨g1.trans h1, g2.trans h2, g3⟩

theorem adjustRanks_only (C : Cfg K) (srch : Search) (v : Volt K) : ∀ (gs : List (List Nat)) (i : Nat) (ups : List (Nat × Int)) (s : St), OnlyConnected C ups →
    (adjustRanks C srch v gs i ups s).1.pos = s.pos ∧ (adjustRanks C srch v gs i ups s).1.log = s.log ∧
      ∀ a, (adjustRanks C srch v gs i ups s).2 = .ok (some a) → OnlyConnected C a.1 := by
  intro gs
  induction gs with
  | nil =>
    intro i ups s _
    refine ⟨rfl, rfl, ?_⟩
    intro a ha
    simp [adjustRanks] at ha
  | cons g gs ih =>
    intro i ups s hu
    obtain ⟨h1, h2, h3⟩ := adjustGroup_only C srch v i g 0 ups false s hu
    rw [adjustRanks]
    generalize hr : adjustGroup C srch v i g 0 ups false s = r at h1 h2 h3
    obtain ⟨s1, e | ⟨ups', _ | _⟩⟩ := r
    · exact ⟨h1, h2, by intro a ha; cases ha⟩
    · dsimp only at h1 h2 h3 ⊢
      obtain ⟨g1, g2, g3⟩ := ih (i + 1) ups' s1 (h3 _ rfl)
      exact ⟨g1.trans h1, g2.trans h2, g3⟩
    · refine ⟨h1, h2, ?_⟩
      intro a ha
      cases ha
      exact h3 _ rfl

variable {C : Cfg K} {t : Nat} {x : Int}

theorem updates_other (C : Cfg K) (ht : (C.T t).connected = false) : ∀ (ups : List (Nat × Int)) (p : Pos), OnlyConnected C ups → ups.foldl (updateOne C) p t = p t := by
  intro ups
  induction ups with
  | nil => intro p _; rfl
  | cons u ups ih =>
    intro p hu
    rw [List.foldl_cons, ih _ fun y hy => hu y (by simp [hy])]
    unfold updateOne
    rw [Function.update_of_ne]
    rintro rfl
    rw [hu u (by simp)] at ht
    cases ht

theorem runCalc_still (C : Cfg K) (m : Method) {s : St} (h : Still t x s) : Still t x (runCalc C m s).1 := by
  refine ⟨h.1, ?_⟩
  intro p hp
  rcases List.mem_cons.mp hp with rfl | hp
  · exact h.1
  · exact h.2 p hp

theorem iterLoop_still (ht : (C.T t).connected = false) (m : Method) (srch : Search) : ∀ (fuel : Nat) (counts : List Nat) (v : Volt K) (s s' : St) (r : Except Err (Volt K)), Still t x s →
    iterLoop C m srch fuel counts v s = some (s', r) → Still t x s' := by
  intro fuel
  induction fuel with
  | zero =>
    intro counts v s s' r h he
    rw [iterLoop] at he
    obtain ⟨h1, h2, h3⟩ := adjustRanks_only C srch v C.order 0 [] s (by intro u hu; simp at hu)
    generalize adjustRanks C srch v C.order 0 [] s = q at he h1 h2 h3
    have hq : Still t x q.1 := ⟨by rw [h1]; exact h.1, by rw [h2]; exact h.2⟩
    obtain ⟨s1, e | _ | ⟨ups, k⟩⟩ := q
    · cases he; exact hq
    · cases he; exact hq
    · dsimp only at he
      split_ifs at he
      · cases he; exact hq
      · have hu : Still t x (updateState C ups s1) := ⟨(updates_other C ht ups s1.pos (h3 _ rfl)).trans hq.1, hq.2⟩
        have hc := runCalc_still C m hu
        generalize runCalc C m (updateState C ups s1) = w at he hc
        obtain ⟨s2, e | v'⟩ := w
        · cases he; exact hc
        · cases he
  | succ fuel ih =>
    intro counts v s s' r h he
    rw [iterLoop] at he
    obtain ⟨h1, h2, h3⟩ := adjustRanks_only C srch v C.order 0 [] s (by intro u hu; simp at hu)
    generalize adjustRanks C srch v C.order 0 [] s = q at he h1 h2 h3
    have hq : Still t x q.1 := ⟨by rw [h1]; exact h.1, by rw [h2]; exact h.2⟩
    obtain ⟨s1, e | _ | ⟨ups, k⟩⟩ := q
    · cases he; exact hq
    · cases he; exact hq
    · dsimp only at he
      split_ifs at he
      · cases he; exact hq
      · have hu : Still t x (updateState C ups s1) := ⟨(updates_other C ht ups s1.pos (h3 _ rfl)).trans hq.1, hq.2⟩
        have hc := runCalc_still C m hu
        generalize runCalc C m (updateState C ups s1) = w at he hc
        obtain ⟨s2, e | v'⟩ := w
        · cases he; exact hc
        · exact ih _ _ _ _ _ hc he

theorem iterate_still (ht : (C.T t).connected = false) (m : Method) (srch : Search) (fuel : Nat) (s s' : St) (r : Except Err (Volt K)) (h : Still t x s)
    (he : iterate C m srch fuel s = some (s', r)) : Still t x s' := by
  unfold iterate at he
  have hc := runCalc_still C m h
  generalize runCalc C m s = w at he hc
  obtain ⟨s2, e | v'⟩ := w
  · cases he; exact hc
  · exact iterLoop_still ht m srch _ _ _ _ _ _ hc he

theorem iterateWithFallback_still (ht : (C.T t).connected = false) (srch : Search) (fuel : Nat) (s s' : St) (r : Except Err (Volt K)) (h : Still t x s)
    (he : iterateWithFallback C srch fuel s = some (s', r)) : Still t x s' := by
  unfold iterateWithFallback at he
  rcases h1 : iterate C .chosen srch fuel s with _ | ⟨s1, e | v⟩
  · rw [h1] at he; cases he
  · rw [h1] at he
    have hs1 := iterate_still ht _ _ _ _ _ _ h h1
    dsimp only at he
    split_ifs at he
    · unfold fallback at he
      rcases h2 : iterate C .linear srch fuel s1 with _ | ⟨s2, e2 | v2⟩
      · rw [h2] at he; cases he
      · rw [h2] at he
        cases he
        exact iterate_still ht _ _ _ _ _ _ hs1 h2
      · rw [h2] at he
        exact iterate_still ht _ _ _ _ _ _ (iterate_still ht _ _ _ _ _ _ hs1 h2) he
    · cases he; exact hs1
  · rw [h1] at he
    cases he
    exact iterate_still ht _ _ _ _ _ _ h h1

/-- A regulated transformer whose controlled side is switched off keeps its tap position in every calculation of the any-valid-tap searches, and this position is reported. -/
theorem disconnected_stays (C : Cfg K) (fuel : Nat) (s s' : St) (r : Except Err (Output K)) (h : Ready C s) (hs : C.strategy = .any ∨ C.strategy = .fastAny)
    (he : optimize C fuel s = some (s', r)) (t : Nat) (ht : (C.T t).connected = false) :
    (∀ p ∈ s'.log, p t = s.pos t) ∧ ∀ o, r = .ok o → ∀ q, (t, q) ∈ o.taps → q = s.pos t := by
  unfold optimize at he
  dsimp only at he
  have h0 : Still t (s.pos t) (pilotRun C { s with bs := prepare C s }) := by
    have hlog : ∀ p ∈ s.log, p t = s.pos t := by rw [h.fresh]; simp
    rcases hs with hs | hs <;> simp only [pilotRun, pilotMove, hs, Strategy.search] <;> exact ⟨rfl, hlog⟩
  rcases h1 : optimizeInner C fuel { s with bs := prepare C s } with _ | ⟨s1, r1⟩
  · rw [h1] at he; cases he
  · rw [h1] at he
    cases he
    unfold optimizeInner at h1
    rcases h2 : iterateWithFallback C C.strategy.search fuel (pilotRun C { s with bs := prepare C s }) with _ | ⟨s2, e | v⟩
    · rw [h2] at h1; cases h1
    · rw [h2] at h1
      cases h1
      have := iterateWithFallback_still ht _ _ _ _ _ h0 h2
      exact ⟨this.2, by intro o ho; cases ho⟩
    · rw [h2] at h1
      have := iterateWithFallback_still ht _ _ _ _ _ h0 h2
      dsimp only at h1
      rw [if_pos hs] at h1
      cases h1
      refine ⟨this.2, ?_⟩
      intro o ho q hq
      cases ho
      obtain ⟨u, -, hu⟩ := List.mem_map.mp hq
      cases hu
      exact this.1

/-! ## An example: the grid of `Props` with the controlled side of transformer 1 switched off -/

/-- The grid. -/
def offCfg (s : Strategy) : Cfg ℚ := ⟨fun t => { exTap t with connected := t = 0 }, [[0], [1]], exSolve, s⟩

theorem off_ready (s : Strategy) : Ready (offCfg s) exStart := by
  refine ⟨?_, ?_, ?_, ?_, rfl⟩ <;> intro t ht <;>
  · simp [Cfg.trafos, offCfg] at ht
    rcases ht with rfl | rfl <;> simp [Tap.Holds, offCfg, exTap, exStart]

example : ∃ s' r, optimize (offCfg .fastAny) 100 exStart = some (s', r) ∧ (∀ p ∈ s'.log, p 1 = 3) ∧ 2 ≤ s'.log.length := by
  have h : ((optimize (offCfg .fastAny) 100 exStart).map fun x => decide (2 ≤ x.1.log.length)) = some true := by decide +kernel
  rcases he : optimize (offCfg .fastAny) 100 exStart with _ | ⟨s', r⟩
  · rw [he] at h; cases h
  · rw [he] at h
    refine ⟨s', r, rfl, (disconnected_stays _ _ _ _ _ (off_ready _) (.inr rfl) he 1 rfl).1, by simpa using h⟩

end PGM.TapOpt
