import Verif.TapOpt.Disconnected

/-!
# Errors that end the optimisation (C25, C49)
-/

namespace PGM.TapOpt

variable {K : Type} [Field K] [LinearOrder K]

/-- Calculation number `n` at the positions `p` fails, with every method, for another reason than that it does not converge or
that the matrix is singular. -/
def Fatal (C : Cfg K) (n : Nat) (p : Pos) : Prop := ∀ m, C.solve n m p = .error .other

/-- None of the calculations, which are numbered from `n`, failed in that way. -/
def Clean (C : Cfg K) (n : Nat) : List Pos → Prop
  | [] => True
  | p :: rest => ¬ Fatal C (n + rest.length) p ∧ Clean C n rest

/-- The calculations so far are counted and none of them failed in that way. -/
def Sound (C : Cfg K) (n : Nat) (s : St) : Prop := Clean C n s.log ∧ s.calls = n + s.log.length

/-- Either no calculation failed in that way, or the last one did and the error is the result. -/
def Stopped {A : Type} (C : Cfg K) (n : Nat) (s : St) (r : Except Err A) : Prop :=
  Sound C n s ∨ (r = .error .other ∧ ∃ p rest, s.log = p :: rest ∧ Clean C n rest)

theorem adjustOne_calls (C : Cfg K) (srch : Search) (v : Volt K) (u i j : Nat) (s : St) :
    (adjustOne C srch v u i j s).1.calls = s.calls := by
  cases srch with
  | linear => rfl
  | binary =>
    simp only [adjustOne, adjustBs, adjustBsRest]
    split_ifs <;> rfl

theorem adjustGroup_calls (C : Cfg K) (srch : Search) (v : Volt K) (i : Nat) : ∀ (l : List Nat) (j : Nat) (ups : List (Nat × Int))
    (ch : Bool) (s : St), (adjustGroup C srch v i l j ups ch s).1.calls = s.calls := by
  intro l
  induction l with
  | nil => intro j ups ch s; rfl
  | cons t l ih =>
    intro j ups ch s
    have h := adjustOne_calls C srch v t i j s
    rw [adjustGroup]
    generalize adjustOne C srch v t i j s = r at h
    obtain ⟨s1, e | a⟩ := r
    · exact h
    · exact (ih _ _ _ _).trans h

theorem adjustRanks_calls (C : Cfg K) (srch : Search) (v : Volt K) : ∀ (gs : List (List Nat)) (i : Nat) (ups : List (Nat × Int))
    (s : St), (adjustRanks C srch v gs i ups s).1.calls = s.calls := by
  intro gs
  induction gs with
  | nil => intro i ups s; rfl
  | cons g gs ih =>
    intro i ups s
    have h := adjustGroup_calls C srch v i g 0 ups false s
    rw [adjustRanks]
    generalize adjustGroup C srch v i g 0 ups false s = r at h
    obtain ⟨s1, e | ⟨ups', _ | _⟩⟩ := r
    · exact h
    · exact (ih _ _ _).trans h
    · exact h

theorem adjustRanks_sound (C : Cfg K) (n : Nat) (srch : Search) (v : Volt K) (s : St) (h : Sound C n s) :
    Sound C n (adjustRanks C srch v C.order 0 [] s).1 := by
  have h1 := adjustRanks_calls C srch v C.order 0 [] s
  have h2 := (adjustRanks_only C srch v C.order 0 [] s (by intro u hu; simp at hu)).2.1
  unfold Sound
  rw [h1, h2]
  exact h

/-- A calculation: if it does not return that error, it did not fail in that way. -/
theorem runCalc_stopped (C : Cfg K) (n : Nat) (m : Method) (s : St) (h : Sound C n s) :
    (∀ v, (runCalc C m s).2 = .ok v → Sound C n (runCalc C m s).1) ∧
      Stopped C n (runCalc C m s).1 (runCalc C m s).2 := by
  obtain ⟨h1, h2⟩ := h
  have step : (runCalc C m s).2 ≠ .error .other → Sound C n (runCalc C m s).1 := by
    intro hne
    refine ⟨⟨?_, h1⟩, ?_⟩
    · intro hf
      apply hne
      show C.solve s.calls m s.pos = _
      rw [h2]
      exact hf m
    · show s.calls + 1 = n + (s.log.length + 1)
      omega
  refine ⟨fun v hv => step (by rw [hv]; simp), ?_⟩
  by_cases he : (runCalc C m s).2 = .error .other
  · exact .inr ⟨he, s.pos, s.log, rfl, h1⟩
  · exact .inl (step he)

theorem iterLoop_stopped (C : Cfg K) (n : Nat) (m : Method) (srch : Search) : ∀ (fuel : Nat) (counts : List Nat) (v : Volt K)
    (s s' : St) (r : Except Err (Volt K)), Sound C n s → iterLoop C m srch fuel counts v s = some (s', r) →
    Stopped C n s' r ∧ ∀ v', r = .ok v' → Sound C n s' := by
  intro fuel
  induction fuel with
  | zero =>
    intro counts v s s' r h he
    rw [iterLoop] at he
    have hq := adjustRanks_sound C n srch v s h
    generalize adjustRanks C srch v C.order 0 [] s = q at he hq
    obtain ⟨s1, e | _ | ⟨ups, k⟩⟩ := q
    · cases he; exact ⟨.inl hq, fun _ _ => hq⟩
    · cases he; exact ⟨.inl hq, fun _ _ => hq⟩
    · dsimp only at he
      split_ifs at he
      · cases he; exact ⟨.inl hq, fun _ _ => hq⟩
      · have hc := runCalc_stopped C n m (updateState C ups s1) hq
        generalize runCalc C m (updateState C ups s1) = w at he hc
        obtain ⟨s2, e | v'⟩ := w
        · cases he; exact ⟨hc.2, fun _ hv => by cases hv⟩
        · cases he
  | succ fuel ih =>
    intro counts v s s' r h he
    rw [iterLoop] at he
    have hq := adjustRanks_sound C n srch v s h
    generalize adjustRanks C srch v C.order 0 [] s = q at he hq
    obtain ⟨s1, e | _ | ⟨ups, k⟩⟩ := q
    · cases he; exact ⟨.inl hq, fun _ _ => hq⟩
    · cases he; exact ⟨.inl hq, fun _ _ => hq⟩
    · dsimp only at he
      split_ifs at he
      · cases he; exact ⟨.inl hq, fun _ _ => hq⟩
      · have hc := runCalc_stopped C n m (updateState C ups s1) hq
        generalize runCalc C m (updateState C ups s1) = w at he hc
        obtain ⟨s2, e | v'⟩ := w
        · cases he; exact ⟨hc.2, fun _ hv => by cases hv⟩
        · exact ih _ _ _ _ _ (hc.1 v' rfl) he

theorem iterate_stopped (C : Cfg K) (n : Nat) (m : Method) (srch : Search) (fuel : Nat) (s s' : St) (r : Except Err (Volt K))
    (h : Sound C n s) (he : iterate C m srch fuel s = some (s', r)) : Stopped C n s' r ∧ ∀ v', r = .ok v' → Sound C n s' := by
  unfold iterate at he
  have hc := runCalc_stopped C n m s h
  generalize runCalc C m s = w at he hc
  obtain ⟨s2, e | v'⟩ := w
  · cases he; exact ⟨hc.2, fun _ hv => by cases hv⟩
  · exact iterLoop_stopped C n m srch _ _ _ _ _ _ (hc.1 v' rfl) he

theorem iterateWithFallback_stopped (C : Cfg K) (n : Nat) (srch : Search) (fuel : Nat) (s s' : St) (r : Except Err (Volt K))
    (h : Sound C n s) (he : iterateWithFallback C srch fuel s = some (s', r)) :
    Stopped C n s' r ∧ ∀ v', r = .ok v' → Sound C n s' := by
  unfold iterateWithFallback at he
  rcases h1 : iterate C .chosen srch fuel s with _ | ⟨s1, e | v⟩
  · rw [h1] at he; cases he
  · rw [h1] at he
    have hs1 := iterate_stopped C n _ _ _ _ _ _ h h1
    dsimp only at he
    split_ifs at he with hr
    · have hclean : Sound C n s1 := by
        rcases hs1.1 with h | ⟨h, _⟩
        · exact h
        · cases h; cases hr
      unfold fallback at he
      rcases h2 : iterate C .linear srch fuel s1 with _ | ⟨s2, e2 | v2⟩
      · rw [h2] at he; cases he
      · rw [h2] at he
        cases he
        exact iterate_stopped C n _ _ _ _ _ _ hclean h2
      · rw [h2] at he
        exact iterate_stopped C n _ _ _ _ _ _ ((iterate_stopped C n _ _ _ _ _ _ hclean h2).2 v2 rfl) he
    · cases he; exact hs1
  · rw [h1] at he
    cases he
    exact iterate_stopped C n _ _ _ _ _ _ h h1

theorem clean_none (C : Cfg K) (n : Nat) : ∀ (l pre : List Pos) (p : Pos) (rest : List Pos), Clean C n l → l = pre ++ p :: rest →
    ¬ Fatal C (n + rest.length) p := by
  intro l pre
  induction pre generalizing l with
  | nil => rintro p rest h rfl; exact h.1
  | cons q pre ih => rintro p rest h rfl; exact ih _ p rest h.2 rfl

/-- C25, C49: for every strategy, a calculation that fails for another reason than that it does not converge or that the matrix is
singular is the last one, and its error is raised: nothing is tried again. Calculation number `s.calls + rest.length` is the one
that was made after those of `rest`. -/
theorem other_error_ends (C : Cfg K) (fuel : Nat) (s s' : St) (r : Except Err (Output K)) (h : Ready C s)
    (ho : optimize C fuel s = some (s', r)) (pre rest : List Pos) (p : Pos) (hl : s'.log = pre ++ p :: rest)
    (hf : ∀ m, C.solve (s.calls + rest.length) m p = .error .other) : pre = [] ∧ r = .error .other := by
  have main : Stopped C s.calls s' r := by
    unfold optimize at ho
    dsimp only at ho
    have h0 : Sound C s.calls (pilotRun C { s with bs := prepare C s }) := by
      have : Sound C s.calls { s with bs := prepare C s } := by
        refine ⟨?_, ?_⟩
        · show Clean C s.calls s.log
          rw [h.fresh]; trivial
        · show s.calls = s.calls + s.log.length
          rw [h.fresh]; rfl
      unfold pilotRun pilotMove
      cases C.strategy <;> exact this
    rcases h1 : optimizeInner C fuel { s with bs := prepare C s } with _ | ⟨s1, r1⟩
    · rw [h1] at ho; cases ho
    rw [h1] at ho
    cases ho
    show Stopped C s.calls s1 r
    unfold optimizeInner at h1
    rcases h2 : iterateWithFallback C C.strategy.search fuel (pilotRun C { s with bs := prepare C s }) with _ | ⟨s2, e | v⟩
    · rw [h2] at h1; cases h1
    · rw [h2] at h1
      cases h1
      rcases (iterateWithFallback_stopped C _ _ _ _ _ _ h0 h2).1 with h | ⟨h, g⟩
      · exact .inl h
      · cases h; exact .inr ⟨rfl, g⟩
    · rw [h2] at h1
      have hs2 := (iterateWithFallback_stopped C _ _ _ _ _ _ h0 h2).2 v rfl
      dsimp only at h1
      split_ifs at h1
      · cases h1; exact .inl hs2
      · have hx : Sound C s.calls (exploit C s2) := by unfold exploit; cases C.strategy <;> exact hs2
        rcases h3 : iterateWithFallback C .linear fuel (exploit C s2) with _ | ⟨s3, e | v'⟩
        · rw [h3] at h1; cases h1
        · rw [h3] at h1
          cases h1
          rcases (iterateWithFallback_stopped C _ _ _ _ _ _ hx h3).1 with h | ⟨h, g⟩
          · exact .inl h
          · cases h; exact .inr ⟨rfl, g⟩
        · rw [h3] at h1
          cases h1
          exact .inl ((iterateWithFallback_stopped C _ _ _ _ _ _ hx h3).2 v' rfl)
  rcases main with hs | ⟨hr, q, l, hq, hc⟩
  · exact absurd hf (clean_none C _ _ _ _ _ hs.1 hl)
  · refine ⟨?_, hr⟩
    rw [hq] at hl
    cases pre with
    | nil => rfl
    | cons a pre =>
      cases hl
      exact absurd hf (clean_none C _ _ _ _ _ hc rfl)

/-! ## An example: the grid of `Props`, but the fourth calculation finds invalid data -/

/-- The grid. -/
def badCfg (s : Strategy) : Cfg ℚ := ⟨exTap, [[0], [1]], fun n m p => if n = 3 then .error .other else exSolve n m p, s⟩

set_option synthInstance.maxHeartbeats 200000 in
set_option synthInstance.maxSize 1000 in
/-- Three calculations with results, then the error. -/
example : summary (optimize (badCfg .any) 100 exStart) = some (.inl .other, [(2, 2), (2, 3), (3, 3), (4, 3)]) := by decide +kernel

example : Ready (badCfg .any) exStart := ⟨(example_ready .any).inRange, (example_ready .any).min, (example_ready .any).max, (example_ready .any).band, rfl⟩

example (m : Method) (p : Pos) : (badCfg .any).solve (exStart.calls + 3) m p = .error .other := rfl

end PGM.TapOpt
