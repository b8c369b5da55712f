import Verif.TapOpt.Lemmas
import Mathlib.Tactic.Linarith
import Mathlib.Tactic.Ring

/-!
# Lemmas on the tap position optimisation: what its iterations preserve
-/

namespace PGM.TapOpt

variable {K : Type}

section
variable [Field K] [LinearOrder K]

/-! ## The scan -/

theorem adjustGroup_linear (C : Cfg K) (v : Volt K) (i : Nat) (s : St) : ∀ (l : List Nat) (j : Nat)
    (ups : List (Nat × Int)) (ch : Bool), adjustGroup C .linear v i l j ups ch s =
      (s, .ok (ups ++ l.flatMap (fun t => (adjustScan C v t s).1), ch || l.any fun t => (adjustScan C v t s).2)) := by
  intro l
  induction l with
  | nil => intro j ups ch; simp [adjustGroup]
  | cons t l ih =>
    intro j ups ch
    simp only [adjustGroup, adjustOne]
    rw [ih]
    simp only [List.flatMap_cons, List.any_cons, List.append_assoc]
    cases ch <;> cases (adjustScan C v t s).2 <;> simp

theorem adjustScan_still (C : Cfg K) (v : Volt K) (t : Nat) (s : St) :
    (adjustScan C v t s).2 = false ↔ scanTarget C v t (s.pos t) = s.pos t := by
  rw [adjustScan_eq]
  by_cases h : scanTarget C v t (s.pos t) = s.pos t <;> simp [h]

theorem adjustScan_mem (C : Cfg K) (v : Volt K) (t : Nat) (s : St) (u : Nat × Int) :
    u ∈ (adjustScan C v t s).1 ↔ u = (t, scanTarget C v t (s.pos t)) ∧ scanTarget C v t (s.pos t) ≠ s.pos t := by
  rw [adjustScan_eq]
  by_cases h : scanTarget C v t (s.pos t) = s.pos t <;> simp [h]

/-- What the scan of all ranks gives. -/
theorem adjustRanks_linear (C : Cfg K) (v : Volt K) (s : St) : ∀ (gs : List (List Nat)) (i : Nat) (ups : List (Nat × Int)),
    (adjustRanks C .linear v gs i ups s = (s, .ok none) ∧ ∀ g ∈ gs, ∀ t ∈ g, scanTarget C v t (s.pos t) = s.pos t) ∨
    ∃ (k : Nat) (g : List Nat), gs[k]? = some g ∧
      adjustRanks C .linear v gs i ups s =
        (s, .ok (some (ups ++ g.flatMap (fun t => (adjustScan C v t s).1), i + k))) ∧
      (∀ (k' : Nat) (h : List Nat), k' < k → gs[k']? = some h → ∀ t ∈ h, scanTarget C v t (s.pos t) = s.pos t) ∧
      ∃ t ∈ g, scanTarget C v t (s.pos t) ≠ s.pos t := by
  intro gs
  induction gs with
  | nil => intro i ups; left; simp [adjustRanks]
  | cons g gs ih =>
    intro i ups
    have hg := adjustGroup_linear C v i s g 0 ups false
    cases hc : (g.any fun t => (adjustScan C v t s).2) with
    | true =>
      right
      refine ⟨0, g, rfl, ?_, by simp, ?_⟩
      · unfold adjustRanks
        rw [hg, hc]
        simp
      · obtain ⟨t, ht, h⟩ := List.any_eq_true.1 hc
        refine ⟨t, ht, ?_⟩
        intro e
        rw [(adjustScan_still C v t s).2 e] at h
        simp at h
    | false =>
      have still : ∀ t ∈ g, scanTarget C v t (s.pos t) = s.pos t := by
        intro t ht
        rw [← adjustScan_still]
        have := List.any_eq_false.1 hc t ht
        simpa using this
      have e : g.flatMap (fun t => (adjustScan C v t s).1) = [] := by
        rw [List.flatMap_eq_nil_iff]
        intro t ht
        rw [adjustScan_eq, if_neg (by simpa using still t ht)]
      have he : adjustRanks C .linear v (g :: gs) i ups s = adjustRanks C .linear v gs (i + 1) ups s := by
        conv => lhs; unfold adjustRanks
        rw [hg, hc, e]
        simp
      rw [he]
      rcases ih (i + 1) ups with ⟨h1, h2⟩ | ⟨k, g', h1, h2, h3, h4⟩
      · left
        refine ⟨h1, ?_⟩
        intro g' hg' t ht
        rcases List.mem_cons.1 hg' with rfl | hg'
        · exact still t ht
        · exact h2 g' hg' t ht
      · right
        refine ⟨k + 1, g', by simpa using h1, ?_, ?_, h4⟩
        · rw [h2]
          have : i + 1 + k = i + (k + 1) := by omega
          rw [this]
        · intro k' h hk hh t ht
          cases k' with
          | zero =>
            simp at hh
            subst hh
            exact still t ht
          | succ k' => exact h3 k' h (by omega) (by simpa using hh) t ht

/-! ## Bands -/

variable [IsStrictOrderedRing K]

theorem cmpBand_some (T : Tap K) (hb : 0 ≤ T.uBand) (x : K) :
    (cmpBand T (some x) = .gt ↔ TooHigh T x) ∧ (cmpBand T (some x) = .lt ↔ TooLow T x) ∧
    (cmpBand T (some x) = .eq ↔ InBand T x) ∧ cmpBand T (some x) ≠ .unordered := by
  have h1 : T.uSet - 1 / 2 * T.uBand = T.uSet - T.uBand / 2 := by ring
  have h2 : T.uSet + 1 / 2 * T.uBand = T.uSet + T.uBand / 2 := by ring
  have h3 : T.uSet - T.uBand / 2 ≤ T.uSet + T.uBand / 2 := by linarith
  unfold cmpBand TooHigh TooLow InBand
  simp only [h1, h2]
  generalize T.uSet - T.uBand / 2 = a at h3
  generalize T.uSet + T.uBand / 2 = b at h3
  unfold cmpVal
  rcases lt_trichotomy x a with ha | ha | ha
  · have hb : x < b := lt_of_lt_of_le ha h3
    simp [ha, hb, not_lt.2 hb.le, not_le.2 ha]
  · subst ha
    rcases lt_or_eq_of_le h3 with hb | hb
    · simp [hb, not_lt.2 hb.le, hb.le]
    · simp [hb]
  · rcases lt_trichotomy x b with hb | hb | hb
    · simp [ha, hb, not_lt.2 hb.le, not_lt.2 ha.le, ha.ne', hb.le, ha.le]
    · subst hb
      simp [ha, not_lt.2 ha.le, ha.ne', ha.le]
    · simp [ha, hb, not_lt.2 hb.le, not_lt.2 ha.le, ha.ne', hb.ne', not_le.2 hb]

theorem band_cases (T : Tap K) (x : K) : TooHigh T x ∨ TooLow T x ∨ InBand T x := by
  unfold TooHigh TooLow InBand
  rcases lt_or_ge x (T.uSet - T.uBand / 2) with h | h
  · exact Or.inr (Or.inl h)
  · rcases lt_or_ge (T.uSet + T.uBand / 2) x with h' | h'
    · exact Or.inl h'
    · exact Or.inr (Or.inr ⟨h, h'⟩)

theorem scanTarget_wanted (C : Cfg K) (v : Volt K) (t : Nat) (p : Int) (hp : (C.T t).Holds p) (hb : 0 ≤ (C.T t).uBand) :
    Wanted (C.T t) (v t) p (scanTarget C v t p) := by
  unfold scanTarget
  refine ⟨?_, ?_, ?_⟩
  · intro hc x hx hh
    rw [if_pos hc, hx, ((cmpBand_some _ hb x).1).2 hh]
    exact voltageDown_eq _ _ hp
  · intro hc x hx hh
    rw [if_pos hc, hx, ((cmpBand_some _ hb x).2.1).2 hh]
    exact voltageUp_eq _ _ hp
  · rintro (hc | hc | ⟨x, hx, hh⟩)
    · rw [if_neg (by simp [hc])]
    · rw [hc]
      split <;> rfl
    · rw [hx, ((cmpBand_some _ hb x).2.2.1).2 hh]
      split <;> rfl

theorem scanTarget_settled (C : Cfg K) (v : Volt K) (t : Nat) (p : Int) (hp : (C.T t).Holds p) (hb : 0 ≤ (C.T t).uBand)
    (hc : (C.T t).connected = true) (x : K) (hx : v t = some x) (h : scanTarget C v t p = p) : Settled (C.T t) p x := by
  obtain ⟨w1, w2, _⟩ := scanTarget_wanted C v t p hp hb
  rcases band_cases (C.T t) x with hh | hh | hh
  · have := w1 hc x hx hh
    rw [h] at this
    exact Or.inr (Or.inl ⟨hh, (towards_self_iff _ _).1 this.symm⟩)
  · have := w2 hc x hx hh
    rw [h] at this
    exact Or.inr (Or.inr ⟨hh, (towards_self_iff _ _).1 this.symm⟩)
  · exact Or.inl hh

/-- The widths of the bands. -/
def Bands (C : Cfg K) : Prop := ∀ t ∈ C.trafos, 0 ≤ (C.T t).uBand

omit [Field K] [LinearOrder K] [IsStrictOrderedRing K] in
theorem mem_trafos {C : Cfg K} {i : Nat} {g : List Nat} (hg : C.order[i]? = some g) {t : Nat} (ht : t ∈ g) :
    t ∈ C.trafos := List.mem_flatten.2 ⟨g, List.mem_of_getElem? hg, ht⟩

theorem scan_adjusted {C : Cfg K} (hl : Limits C) (hb : Bands C) {p0 : Pos} {s : St} (h : Ok C p0 s) (v : Volt K)
    {k : Nat} {g : List Nat} (hg : C.order[k]? = some g)
    (h3 : ∀ (k' : Nat) (h : List Nat), k' < k → C.order[k']? = some h → ∀ t ∈ h, scanTarget C v t (s.pos t) = s.pos t)
    (h4 : ∃ t ∈ g, scanTarget C v t (s.pos t) ≠ s.pos t) :
    Adjusted C v s.pos (updateState C ([] ++ g.flatMap (fun t => (adjustScan C v t s).1)) s).pos := by
  have good : GoodUps C ([] ++ g.flatMap (fun t => (adjustScan C v t s).1)) := by
    intro u hu
    rw [List.nil_append, List.mem_flatMap] at hu
    obtain ⟨t, ht, hu⟩ := hu
    exact adjustScan_good C v t s (mem_trafos hg ht) (h.pos t (mem_trafos hg ht)) u hu
  have new : ∀ t ∈ g, (updateState C ([] ++ g.flatMap (fun t => (adjustScan C v t s).1)) s).pos t =
      scanTarget C v t (s.pos t) := by
    intro t ht
    show (List.foldl (updateOne C) s.pos _ : Pos) t = _
    rcases updates_spec C hl _ s.pos good t with ⟨x, hx, e⟩ | ⟨e, hx⟩
    · rw [e]
      rw [List.nil_append, List.mem_flatMap] at hx
      obtain ⟨t', _, hx⟩ := hx
      obtain ⟨e', _⟩ := (adjustScan_mem C v t' s _).1 hx
      injection e' with e1 e2
      subst e1
      exact e2
    · rw [e]
      by_contra hne
      apply hx (scanTarget C v t (s.pos t))
      rw [List.nil_append, List.mem_flatMap]
      exact ⟨t, ht, (adjustScan_mem C v t s _).2 ⟨rfl, fun e' => hne e'.symm⟩⟩
  refine ⟨k, g, hg, ?_, ?_, ?_, ?_⟩
  · intro i g' hi hg' t ht
    have := scanTarget_wanted C v t (s.pos t) (h.pos t (mem_trafos hg' ht)) (hb t (mem_trafos hg' ht))
    rwa [h3 i g' hi hg' t ht] at this
  · intro t ht
    rw [new t ht]
    exact scanTarget_wanted C v t (s.pos t) (h.pos t (mem_trafos hg ht)) (hb t (mem_trafos hg ht))
  · intro t ht
    show (List.foldl (updateOne C) s.pos _ : Pos) t = _
    rcases updates_spec C hl _ s.pos good t with ⟨x, hx, e⟩ | ⟨e, hx⟩
    · exfalso
      rw [List.nil_append, List.mem_flatMap] at hx
      obtain ⟨t', ht', hx⟩ := hx
      obtain ⟨e', _⟩ := (adjustScan_mem C v t' s _).1 hx
      injection e' with e1 e2
      subst e1
      exact ht ht'
    · exact e
  · obtain ⟨t, ht, hne⟩ := h4
    exact ⟨t, ht, by rw [new t ht]; exact hne⟩

/-! ## Iterations -/

/-- The calls are counted. -/
def Cnt (n : Nat) (s : St) : Prop := s.calls = n + s.log.length

/-- The voltages are those of the last call, which was made at the present positions. -/
def Last (C : Cfg K) (n : Nat) (m : Method) (v : Volt K) (s : St) : Prop :=
  ∃ rest, s.log = s.pos :: rest ∧ C.solve (n + rest.length) m s.pos = .ok v

/-- The positions so far are a walk that has arrived at the present positions. -/
def Walked (C : Cfg K) (n : Nat) (p0 : Pos) (s : St) : Prop :=
  Walk C n p0 s.log ∧ ((s.log = [] ∧ s.pos = p0) ∨ s.log.head? = some s.pos)

omit [Field K] [LinearOrder K] [IsStrictOrderedRing K] in
theorem runCalc_cnt {C : Cfg K} {n : Nat} {s : St} (h : Cnt n s) (m : Method) : Cnt n (runCalc C m s).1 := by
  unfold Cnt runCalc at *
  simp only [List.length_cons]
  omega

omit [Field K] [LinearOrder K] [IsStrictOrderedRing K] in
theorem runCalc_last {C : Cfg K} {n : Nat} {s : St} (h : Cnt n s) (m : Method) (v : Volt K)
    (hv : (runCalc C m s).2 = .ok v) : Last C n m v (runCalc C m s).1 := by
  refine ⟨s.log, rfl, ?_⟩
  unfold runCalc at hv
  simp only at hv
  rw [h] at hv
  exact hv

omit [IsStrictOrderedRing K] in
theorem runCalc_walked {C : Cfg K} {n : Nat} {p0 : Pos} {s : St} (h : Walked C n p0 s) (m : Method) : Walked C n p0 (runCalc C m s).1 := by
  refine ⟨?_, Or.inr rfl⟩
  show Walk C n p0 (s.pos :: s.log)
  rcases h.2 with ⟨e, e'⟩ | e
  · rw [e, e']; exact .first
  · cases hl : s.log with
    | nil => rw [hl] at e; simp at e
    | cons p l =>
      rw [hl] at e
      simp at e
      subst e
      have := h.1
      rw [hl] at this
      exact .again this

/-- What an iteration guarantees about its last state and its result. -/
structure Done (C : Cfg K) (p0 : Pos) (n : Nat) (m : Method) (srch : Search) (s : St) (r : Except Err (Volt K)) : Prop where
  ok : Ok C p0 s
  cnt : Cnt n s
  last : ∀ v, r = .ok v → Last C n m v s
  still : srch = .linear → ∀ v, r = .ok v → ∀ t ∈ C.trafos, scanTarget C v t (s.pos t) = s.pos t

omit [IsStrictOrderedRing K] in
theorem iterLoop_done {C : Cfg K} (hl : Limits C) {p0 : Pos} {n : Nat} (m : Method) (srch : Search) :
    ∀ (fuel : Nat) (counts : List Nat) (v : Volt K) (s : St) (out : St × Except Err (Volt K)), Ok C p0 s → Cnt n s →
    Last C n m v s → iterLoop C m srch fuel counts v s = some out → Done C p0 n m srch out.1 out.2 := by
  intro fuel
  induction fuel with
  | zero =>
    intro counts v s out hok hcnt hlast h
    unfold iterLoop at h
    obtain ⟨a1, a2, a3⟩ := adjustRanks_ok (p0 := p0) srch v C.order 0 [] s hok (by intro k g hg; simpa using hg)
      (by intro u hu; simp at hu)
    cases ha : adjustRanks C srch v C.order 0 [] s with
    | mk s' q =>
      rw [ha] at h a1 a2 a3
      have hcnt' : Cnt n s' := by unfold Cnt at *; rw [a2.2.1, a2.2.2]; exact hcnt
      cases q with
      | error e => cases h; exact ⟨a1, hcnt', by simp, by simp⟩
      | ok q =>
        cases q with
        | none =>
          cases h
          refine ⟨a1, hcnt', ?_, ?_⟩
          · intro v' hv
            cases hv
            unfold Last at *
            rw [a2.1, a2.2.2]
            exact hlast
          · intro hs v' hv t ht
            cases hv
            subst hs
            rcases adjustRanks_linear C v s C.order 0 [] with ⟨h1, h2⟩ | ⟨k, g, _, h2, _⟩
            · obtain ⟨g, hg, ht⟩ := List.mem_flatten.1 ht
              rw [ha] at h1
              have e : s' = s := congrArg Prod.fst h1
              rw [e]
              exact h2 g hg t ht
            · rw [ha] at h2
              simp at h2
        | some q =>
          obtain ⟨ups, r⟩ := q
          simp only at h
          by_cases hc : (bump counts r).getD r 0 > 2 * (maxRanges C).getD r 0
          · rw [if_pos hc] at h
            cases h
            exact ⟨a1, hcnt', by simp, by simp⟩
          · rw [if_neg hc] at h
            have hup := updateState_ok hl a1 (a3 _ rfl).1
            have hr := runCalc_ok hup m
            have hc2 : Cnt n (updateState C ups s') := hcnt'
            have hrc := runCalc_cnt (C := C) hc2 m
            cases hq : runCalc C m (updateState C ups s') with
            | mk s'' q =>
              rw [hq] at h hr hrc
              cases q with
              | error e => cases h; exact ⟨hr, hrc, by simp, by simp⟩
              | ok v' => simp at h
  | succ fuel ih =>
    intro counts v s out hok hcnt hlast h
    unfold iterLoop at h
    obtain ⟨a1, a2, a3⟩ := adjustRanks_ok (p0 := p0) srch v C.order 0 [] s hok (by intro k g hg; simpa using hg)
      (by intro u hu; simp at hu)
    cases ha : adjustRanks C srch v C.order 0 [] s with
    | mk s' q =>
      rw [ha] at h a1 a2 a3
      have hcnt' : Cnt n s' := by unfold Cnt at *; rw [a2.2.1, a2.2.2]; exact hcnt
      cases q with
      | error e => cases h; exact ⟨a1, hcnt', by simp, by simp⟩
      | ok q =>
        cases q with
        | none =>
          cases h
          refine ⟨a1, hcnt', ?_, ?_⟩
          · intro v' hv
            cases hv
            unfold Last at *
            rw [a2.1, a2.2.2]
            exact hlast
          · intro hs v' hv t ht
            cases hv
            subst hs
            rcases adjustRanks_linear C v s C.order 0 [] with ⟨h1, h2⟩ | ⟨k, g, _, h2, _⟩
            · obtain ⟨g, hg, ht⟩ := List.mem_flatten.1 ht
              rw [ha] at h1
              have e : s' = s := congrArg Prod.fst h1
              rw [e]
              exact h2 g hg t ht
            · rw [ha] at h2
              simp at h2
        | some q =>
          obtain ⟨ups, r⟩ := q
          simp only at h
          by_cases hc : (bump counts r).getD r 0 > 2 * (maxRanges C).getD r 0
          · rw [if_pos hc] at h
            cases h
            exact ⟨a1, hcnt', by simp, by simp⟩
          · rw [if_neg hc] at h
            have hup := updateState_ok hl a1 (a3 _ rfl).1
            have hr := runCalc_ok hup m
            have hc2 : Cnt n (updateState C ups s') := hcnt'
            have hrc := runCalc_cnt (C := C) hc2 m
            have hrl := runCalc_last (C := C) hc2 m
            cases hq : runCalc C m (updateState C ups s') with
            | mk s'' q =>
              rw [hq] at h hr hrc hrl
              cases q with
              | error e => cases h; exact ⟨hr, hrc, by simp, by simp⟩
              | ok v' => exact ih _ _ _ _ hr hrc (hrl v' rfl) h

omit [IsStrictOrderedRing K] in
theorem iterate_done {C : Cfg K} (hl : Limits C) {p0 : Pos} {n : Nat} (m : Method) (srch : Search) (fuel : Nat) (s : St)
    (out : St × Except Err (Volt K)) (hok : Ok C p0 s) (hcnt : Cnt n s) (h : iterate C m srch fuel s = some out) :
    Done C p0 n m srch out.1 out.2 := by
  unfold iterate at h
  have h1 := runCalc_ok hok m
  have h2 := runCalc_cnt (C := C) hcnt m
  have h3 := runCalc_last (C := C) hcnt m
  cases hq : runCalc C m s with
  | mk s' q =>
    rw [hq] at h h1 h2 h3
    cases q with
    | error e => cases h; exact ⟨h1, h2, by simp, by simp⟩
    | ok v => exact iterLoop_done hl m srch _ _ _ _ _ h1 h2 (h3 v rfl) h

omit [IsStrictOrderedRing K] in
theorem fallback_done {C : Cfg K} (hl : Limits C) {p0 : Pos} {n : Nat} (srch : Search) (fuel : Nat) (s : St)
    (out : St × Except Err (Volt K)) (hok : Ok C p0 s) (hcnt : Cnt n s)
    (h : iterateWithFallback C srch fuel s = some out) : Done C p0 n .chosen srch out.1 out.2 := by
  unfold iterateWithFallback at h
  cases h1 : iterate C .chosen srch fuel s with
  | none => rw [h1] at h; simp at h
  | some r =>
    obtain ⟨s', q⟩ := r
    have d1 := iterate_done hl _ _ _ _ _ hok hcnt h1
    rw [h1] at h
    cases q with
    | ok v => cases h; exact d1
    | error e =>
      simp only at h
      by_cases hr : e.recoverable = true
      · rw [if_pos hr] at h
        unfold fallback at h
        cases h2 : iterate C .linear srch fuel s' with
        | none => rw [h2] at h; simp at h
        | some r =>
          obtain ⟨s'', q⟩ := r
          have d2 := iterate_done hl _ _ _ _ _ d1.ok d1.cnt h2
          rw [h2] at h
          cases q with
          | ok v => exact iterate_done hl _ _ _ _ _ d2.ok d2.cnt h
          | error e => cases h; exact ⟨d2.ok, d2.cnt, by simp, by simp⟩
      · rw [if_neg hr] at h
        cases h
        exact d1

/-! ## Walks -/

theorem iterLoop_walked {C : Cfg K} (hl : Limits C) (hb : Bands C) {p0 : Pos} {n : Nat} (m : Method) :
    ∀ (fuel : Nat) (counts : List Nat) (v : Volt K) (s : St) (out : St × Except Err (Volt K)), Ok C p0 s → Cnt n s →
    Last C n m v s → Walked C n p0 s → iterLoop C m .linear fuel counts v s = some out → Walked C n p0 out.1 := by
  intro fuel
  induction fuel with
  | zero =>
    intro counts v s out hok hcnt hlast hw h
    unfold iterLoop at h
    rcases adjustRanks_linear C v s C.order 0 [] with ⟨h1, h2⟩ | ⟨k, g, h1, h2, h3, h4⟩
    · rw [h1] at h
      cases h
      exact hw
    · rw [h2] at h
      simp only at h
      split at h
      · cases h; exact hw
      · have ha := scan_adjusted hl hb hok v h1 h3 h4
        have hw' : Walk C n p0 ((updateState C ([] ++ g.flatMap (fun t => (adjustScan C v t s).1)) s).pos :: s.log) := by
          obtain ⟨rest, e1, e2⟩ := hlast
          have := hw.1
          rw [e1] at this ⊢
          exact .step this e2 ha
        cases hq : runCalc C m (updateState C ([] ++ g.flatMap (fun t => (adjustScan C v t s).1)) s) with
        | mk s'' q =>
          rw [hq] at h
          cases q with
          | error e =>
            cases h
            have e' : s'' = (runCalc C m (updateState C ([] ++ g.flatMap (fun t => (adjustScan C v t s).1)) s)).1 := by
              rw [hq]
            rw [e']
            exact ⟨hw', Or.inr rfl⟩
          | ok v' => simp at h
  | succ fuel ih =>
    intro counts v s out hok hcnt hlast hw h
    unfold iterLoop at h
    rcases adjustRanks_linear C v s C.order 0 [] with ⟨h1, h2⟩ | ⟨k, g, h1, h2, h3, h4⟩
    · rw [h1] at h
      cases h
      exact hw
    · rw [h2] at h
      simp only at h
      split at h
      · cases h; exact hw
      · have ha := scan_adjusted hl hb hok v h1 h3 h4
        have hw' : Walk C n p0 ((updateState C ([] ++ g.flatMap (fun t => (adjustScan C v t s).1)) s).pos :: s.log) := by
          obtain ⟨rest, e1, e2⟩ := hlast
          have := hw.1
          rw [e1] at this ⊢
          exact .step this e2 ha
        have hup : Ok C p0 (updateState C ([] ++ g.flatMap (fun t => (adjustScan C v t s).1)) s) := by
          obtain ⟨_, _, a3⟩ := adjustRanks_ok (p0 := p0) .linear v C.order 0 [] s hok (by intro k g hg; simpa using hg)
            (by intro u hu; simp at hu)
          rw [h2] at a3
          exact updateState_ok hl hok (a3 _ rfl).1
        have hr := runCalc_ok hup m
        have hc2 : Cnt n (updateState C ([] ++ g.flatMap (fun t => (adjustScan C v t s).1)) s) := hcnt
        have hrc := runCalc_cnt (C := C) hc2 m
        have hrl := runCalc_last (C := C) hc2 m
        cases hq : runCalc C m (updateState C ([] ++ g.flatMap (fun t => (adjustScan C v t s).1)) s) with
        | mk s'' q =>
          rw [hq] at h hr hrc hrl
          have hw2 : Walked C n p0 s'' := by
            have e' : s'' = (runCalc C m (updateState C ([] ++ g.flatMap (fun t => (adjustScan C v t s).1)) s)).1 := by
              rw [hq]
            rw [e']
            exact ⟨hw', Or.inr rfl⟩
          cases q with
          | error e => cases h; exact hw2
          | ok v' => exact ih _ _ _ _ hr hrc (hrl v' rfl) hw2 h

theorem iterate_walked {C : Cfg K} (hl : Limits C) (hb : Bands C) {p0 : Pos} {n : Nat} (m : Method) (fuel : Nat) (s : St)
    (out : St × Except Err (Volt K)) (hok : Ok C p0 s) (hcnt : Cnt n s) (hw : Walked C n p0 s)
    (h : iterate C m .linear fuel s = some out) : Walked C n p0 out.1 := by
  unfold iterate at h
  have h1 := runCalc_ok hok m
  have h2 := runCalc_cnt (C := C) hcnt m
  have h3 := runCalc_last (C := C) hcnt m
  have h4 := runCalc_walked hw m
  cases hq : runCalc C m s with
  | mk s' q =>
    rw [hq] at h h1 h2 h3 h4
    cases q with
    | error e => cases h; exact h4
    | ok v => exact iterLoop_walked hl hb m _ _ _ _ _ h1 h2 (h3 v rfl) h4 h

theorem fallback_walked {C : Cfg K} (hl : Limits C) (hb : Bands C) {p0 : Pos} {n : Nat} (fuel : Nat) (s : St)
    (out : St × Except Err (Volt K)) (hok : Ok C p0 s) (hcnt : Cnt n s) (hw : Walked C n p0 s)
    (h : iterateWithFallback C .linear fuel s = some out) : Walked C n p0 out.1 := by
  unfold iterateWithFallback at h
  cases h1 : iterate C .chosen .linear fuel s with
  | none => rw [h1] at h; simp at h
  | some r =>
    obtain ⟨s', q⟩ := r
    have d1 := iterate_done hl _ _ _ _ _ hok hcnt h1
    have w1 := iterate_walked hl hb _ _ _ _ hok hcnt hw h1
    rw [h1] at h
    cases q with
    | ok v => cases h; exact w1
    | error e =>
      simp only at h
      by_cases hr : e.recoverable = true
      · rw [if_pos hr] at h
        unfold fallback at h
        cases h2 : iterate C .linear .linear fuel s' with
        | none => rw [h2] at h; simp at h
        | some r =>
          obtain ⟨s'', q⟩ := r
          have d2 := iterate_done hl _ _ _ _ _ d1.ok d1.cnt h2
          have w2 := iterate_walked hl hb _ _ _ _ d1.ok d1.cnt w1 h2
          rw [h2] at h
          cases q with
          | ok v => exact iterate_walked hl hb _ _ _ _ d2.ok d2.cnt w2 h
          | error e => cases h; exact w2
      · rw [if_neg hr] at h
        cases h
        exact w1

/-! ## The whole -/

omit [IsStrictOrderedRing K] in
theorem regulateAll_ok {C : Cfg K} (hl : Limits C) {p0 : Pos} {s : St} (h : Ok C p0 s) (f : Tap K → Int → Int)
    (hf : ∀ (T : Tap K) (p : Int), T.Holds p → T.Holds (f T p)) : Ok C p0 (regulateAll C f s) := by
  apply updateState_ok hl h
  intro u hu
  obtain ⟨t, ht, rfl⟩ := List.mem_map.1 hu
  exact ⟨ht, hf _ _ (h.pos t ht)⟩

omit [IsStrictOrderedRing K] in
theorem pilotRun_ok {C : Cfg K} (hl : Limits C) {p0 : Pos} {s : St} (h : Ok C p0 s) : Ok C p0 (pilotRun C s) := by
  have h1 : Ok C p0 (pilotMove C s) := by
    unfold pilotMove
    split
    · exact regulateAll_ok hl h _ fun T _ _ => holds_highEnd T
    · exact regulateAll_ok hl h _ fun T _ _ => holds_lowEnd T
    · exact h
  unfold pilotRun
  generalize pilotMove C s = s1 at h1
  split
  · refine ⟨h1.pos, h1.frame, ?_, h1.log⟩
    intro i j t hat
    show BsOk _ (refresh C s1 i j)
    unfold refresh
    rw [show (C.order.getD i [])[j]? = some t from hat]
    have := h1.bs i j t hat
    exact ⟨this.1, this.2.1, h1.pos t hat.mem⟩
  · exact h1

omit [IsStrictOrderedRing K] in
theorem exploit_ok {C : Cfg K} (hl : Limits C) {p0 : Pos} {s : St} (h : Ok C p0 s) : Ok C p0 (exploit C s) := by
  unfold exploit
  split
  · refine regulateAll_ok hl h _ fun T p hp => ?_
    rw [voltageUp_eq T p hp]; exact towards_holds _ (holds_highEnd _) hp
  · refine regulateAll_ok hl h _ fun T p hp => ?_
    rw [voltageDown_eq T p hp]; exact towards_holds _ (holds_lowEnd _) hp
  · exact h

omit [IsStrictOrderedRing K] in
theorem pilotRun_cnt {C : Cfg K} {n : Nat} {s : St} (h : Cnt n s) : Cnt n (pilotRun C s) := by
  unfold pilotRun pilotMove
  cases C.strategy <;> exact h

omit [IsStrictOrderedRing K] in
theorem exploit_cnt {C : Cfg K} {n : Nat} {s : St} (h : Cnt n s) : Cnt n (exploit C s) := by
  unfold exploit
  cases C.strategy <;> exact h

/-- What the inner optimisation guarantees. -/
structure Finished (C : Cfg K) (p0 : Pos) (n : Nat) (s : St) (r : Except Err (Output K)) : Prop where
  ok : Ok C p0 s
  cnt : Cnt n s
  last : ∀ o, r = .ok o → Last C n .chosen o.volt s ∧ o.taps = C.trafos.map fun t => (t, s.pos t)
  still : C.strategy ≠ .fastAny → ∀ o, r = .ok o → ∀ t ∈ C.trafos, scanTarget C o.volt t (s.pos t) = s.pos t

omit [IsStrictOrderedRing K] in
theorem optimizeInner_finished {C : Cfg K} (hl : Limits C) {p0 : Pos} {n : Nat} (fuel : Nat) (s : St)
    (out : St × Except Err (Output K)) (hok : Ok C p0 s) (hcnt : Cnt n s) (h : optimizeInner C fuel s = some out) :
    Finished C p0 n out.1 out.2 := by
  unfold optimizeInner at h
  cases h1 : iterateWithFallback C C.strategy.search fuel (pilotRun C s) with
  | none => rw [h1] at h; simp at h
  | some r =>
    obtain ⟨s', q⟩ := r
    have d := fallback_done hl _ _ _ _ (pilotRun_ok hl hok) (pilotRun_cnt (C := C) hcnt) h1
    rw [h1] at h
    cases q with
    | error e => cases h; exact ⟨d.ok, d.cnt, by simp, by simp⟩
    | ok v =>
      simp only at h
      by_cases hs : C.strategy = .any ∨ C.strategy = .fastAny
      · rw [if_pos hs] at h
        cases h
        refine ⟨d.ok, d.cnt, ?_, ?_⟩
        · intro o ho
          cases ho
          exact ⟨d.last v rfl, rfl⟩
        · intro hf o ho
          cases ho
          rcases hs with hs | hs
          · exact d.still (by rw [hs]; rfl) v rfl
          · exact absurd hs hf
      · rw [if_neg hs] at h
        cases h2 : iterateWithFallback C .linear fuel (exploit C s') with
        | none => rw [h2] at h; simp at h
        | some r =>
          obtain ⟨s'', q⟩ := r
          have d2 := fallback_done hl _ _ _ _ (exploit_ok hl d.ok) (exploit_cnt (C := C) d.cnt) h2
          rw [h2] at h
          cases q with
          | error e => cases h; exact ⟨d2.ok, d2.cnt, by simp, by simp⟩
          | ok v' =>
            cases h
            refine ⟨d2.ok, d2.cnt, ?_, ?_⟩
            · intro o ho
              cases ho
              exact ⟨d2.last v' rfl, rfl⟩
            · intro _ o ho
              cases ho
              exact d2.still rfl v' rfl

omit [IsStrictOrderedRing K] in
theorem start_ok {C : Cfg K} {s : St} (h : Ready C s) : Ok C s.pos { s with bs := prepare C s } := by
  refine ⟨h.inRange, fun _ _ => rfl, ?_, ?_⟩
  · intro i j t hat
    show BsOk _ (prepare C s i j)
    unfold prepare
    rw [show (C.order.getD i [])[j]? = some t from hat]
    exact make_ok _ (h.inRange t hat.mem) _
  · intro p hp
    simp only [h.fresh] at hp
    simp at hp

omit [IsStrictOrderedRing K] in
theorem ready_limits {C : Cfg K} {s : St} (h : Ready C s) : Limits C := fun t ht => ⟨h.min t ht, h.max t ht⟩

omit [IsStrictOrderedRing K] in
theorem start_cnt {C : Cfg K} {s : St} (h : Ready C s) : Cnt s.calls { s with bs := prepare C s } := by
  unfold Cnt
  simp [h.fresh]

end

end PGM.TapOpt
