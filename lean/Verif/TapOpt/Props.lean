import Verif.TapOpt.Runs
import Mathlib.Tactic.NormNum
import Mathlib.Algebra.Order.Ring.Rat
import Mathlib.Algebra.Order.Field.Rat

/-!
# C25 and C49: the tap position optimisation
-/

namespace PGM.TapOpt

variable {K : Type} [Field K] [LinearOrder K]

/-- C25, C49: the optimisation ends for every behaviour of the grid and of the solver, every strategy and every start; the
bound depends on the ranking and the tap ranges only. -/
theorem optimize_terminates (T : Nat → Tap K) (order : List (List Nat)) :
    ∃ N, ∀ (solve : Calc K) (strategy : Strategy) (s : St) (fuel : Nat), N ≤ fuel →
      optimize ⟨T, order, solve, strategy⟩ fuel s ≠ none := by
  refine ⟨((order.map fun g => (g.map fun t => tapRange (T t)).foldl max 0).map fun r => 2 * r + 1).foldr (· * ·) 1, ?_⟩
  intro solve strategy s fuel hf
  generalize hC : (⟨T, order, solve, strategy⟩ : Cfg K) = C
  have hb : bound C ≤ fuel + 1 := by
    subst hC
    exact Nat.le_succ_of_le hf
  have inner : ∀ s, optimizeInner C fuel s ≠ none := by
    intro s
    unfold optimizeInner
    cases h1 : iterateWithFallback C C.strategy.search fuel (pilotRun C s) with
    | none => exact absurd h1 (fallback_ends _ _ _ _ hb)
    | some r =>
      obtain ⟨s', q⟩ := r
      cases q with
      | error e => simp
      | ok v =>
        simp only
        split
        · simp
        · cases h2 : iterateWithFallback C .linear fuel (exploit C s') with
          | none => exact absurd h2 (fallback_ends _ _ _ _ hb)
          | some r =>
            obtain ⟨s'', q⟩ := r
            cases q <;> simp
  unfold optimize
  simp only
  cases h : optimizeInner C fuel { s with bs := prepare C s } with
  | none => exact absurd h (inner _)
  | some r => simp

/-- What the optimisation did, before the positions were restored. -/
theorem optimize_inner_of {C : Cfg K} {fuel : Nat} {s s' : St} {r : Except Err (Output K)} (h : Ready C s)
    (ho : optimize C fuel s = some (s', r)) : ∃ s1, Finished C s.pos s.calls s1 r ∧ s'.log = s1.log ∧ s'.calls = s1.calls ∧
      s' = updateState C (C.order.flatten.map fun t => (t, s.pos t)) s1 ∧
      optimizeInner C fuel { s with bs := prepare C s } = some (s1, r) := by
  unfold optimize at ho
  simp only at ho
  cases h1 : optimizeInner C fuel { s with bs := prepare C s } with
  | none => rw [h1] at ho; simp at ho
  | some q =>
    obtain ⟨s1, r'⟩ := q
    rw [h1] at ho
    cases ho
    exact ⟨s1, optimizeInner_finished (ready_limits h) fuel _ _ (start_ok h) (start_cnt h) h1, rfl, rfl, rfl, rfl⟩

/-- C25, C49: afterwards every tap position of the model is what it was before, whether the optimisation succeeded or
raised an error, for every strategy. -/
theorem optimize_restores (C : Cfg K) (fuel : Nat) (s s' : St) (r : Except Err (Output K)) (h : Ready C s)
    (ho : optimize C fuel s = some (s', r)) : s'.pos = s.pos := by
  obtain ⟨s1, hf, _, _, rfl, _⟩ := optimize_inner_of h ho
  funext t
  have good : GoodUps C (C.order.flatten.map fun t => (t, s.pos t)) := by
    intro u hu
    obtain ⟨t, ht, rfl⟩ := List.mem_map.1 hu
    exact ⟨ht, h.inRange t ht⟩
  show (List.foldl (updateOne C) s1.pos _ : Pos) t = _
  rcases updates_spec C (ready_limits h) _ s1.pos good t with ⟨x, hx, e⟩ | ⟨e, hx⟩
  · rw [e]
    obtain ⟨t', _, e'⟩ := List.mem_map.1 hx
    injection e' with e1 e2
    subst e1
    exact e2.symm
  · rw [e]
    apply hf.ok.frame
    intro ht
    exact hx (s.pos t) (List.mem_map.2 ⟨t, ht, rfl⟩)

/-- C25, C49: for every strategy, all calculations are made with tap positions inside the ranges, and no other tap is
touched. -/
theorem optimize_in_range (C : Cfg K) (fuel : Nat) (s s' : St) (r : Except Err (Output K)) (h : Ready C s)
    (ho : optimize C fuel s = some (s', r)) :
    ∀ p ∈ s'.log, (∀ t ∈ C.trafos, (C.T t).Holds (p t)) ∧ ∀ t, t ∉ C.trafos → p t = s.pos t := by
  obtain ⟨s1, hf, e, _⟩ := optimize_inner_of h ho
  rw [e]
  exact hf.ok.log

/-- C25, C49: a result that is returned belongs to the last calculation, which was made with the chosen method at the tap
positions that are reported. -/
theorem optimize_result (C : Cfg K) (fuel : Nat) (s s' : St) (o : Output K) (h : Ready C s)
    (ho : optimize C fuel s = some (s', .ok o)) :
    ∃ p rest, s'.log = p :: rest ∧ C.solve (s.calls + rest.length) .chosen p = .ok o.volt ∧
      o.taps = C.trafos.map fun t => (t, p t) := by
  obtain ⟨s1, hf, e, _⟩ := optimize_inner_of h ho
  obtain ⟨⟨rest, e1, e2⟩, e3⟩ := hf.last o rfl
  exact ⟨s1.pos, rest, by rw [e, e1], e2, e3⟩

variable [IsStrictOrderedRing K]

/-- C25: when the optimisation reports success, every regulated transformer whose controlled node has a voltage is inside
its band, or at the end of its range towards the band; this holds for every strategy but the fast one. -/
theorem success_settled (C : Cfg K) (fuel : Nat) (s s' : St) (o : Output K) (h : Ready C s) (hs : C.strategy ≠ .fastAny)
    (ho : optimize C fuel s = some (s', .ok o)) :
    ∀ t p, (t, p) ∈ o.taps → (C.T t).connected = true → ∀ x, o.volt t = some x → Settled (C.T t) p x := by
  obtain ⟨s1, hf, e, _⟩ := optimize_inner_of h ho
  intro t p htp hc x hx
  rw [(hf.last o rfl).2] at htp
  obtain ⟨t', ht, e'⟩ := List.mem_map.1 htp
  injection e' with e1 e2
  subst e1
  subst e2
  exact scanTarget_settled C o.volt t' _ (hf.ok.pos t' ht) (h.band t' ht) hc x hx (hf.still hs o rfl t' ht)

/-- C25: with the any-valid-tap strategy the positions of successive calculations are a walk of single adjustments, each
following from the result of the calculation before it, lower ranks first and the transformers of a rank together. -/
theorem any_walks (C : Cfg K) (fuel : Nat) (s s' : St) (r : Except Err (Output K)) (h : Ready C s) (hs : C.strategy = .any)
    (ho : optimize C fuel s = some (s', r)) : Walk C s.calls s.pos s'.log := by
  obtain ⟨s1, _, e, _, _, h1⟩ := optimize_inner_of h ho
  rw [e]
  unfold optimizeInner at h1
  have hp : pilotRun C { s with bs := prepare C s } = { s with bs := prepare C s } := by
    unfold pilotRun pilotMove
    rw [hs]
    rfl
  rw [hp, hs] at h1
  have hw : Walked C s.calls s.pos { s with bs := prepare C s } := by
    refine ⟨?_, Or.inl ⟨h.fresh, rfl⟩⟩
    show Walk C s.calls s.pos s.log
    rw [h.fresh]
    exact .nil
  cases h2 : iterateWithFallback C .linear fuel { s with bs := prepare C s } with
  | none => rw [show Strategy.any.search = .linear from rfl, h2] at h1; simp at h1
  | some q =>
    obtain ⟨s2, q⟩ := q
    have := (fallback_walked (ready_limits h) h.band fuel _ _ (start_ok h) (start_cnt h) hw h2).1
    rw [show Strategy.any.search = .linear from rfl, h2] at h1
    cases q with
    | error e => cases h1; exact this
    | ok v =>
      simp only [true_or, if_true] at h1
      cases h1
      exact this

theorem wanted_near (T : Tap K) (v : Option K) (p q : Int) (h : Wanted T v p q) : (q - p).natAbs ≤ 1 := by
  obtain ⟨h1, h2, h3⟩ := h
  cases hc : T.connected with
  | false => rw [h3 (Or.inl hc)]; simp
  | true =>
    cases v with
    | none => rw [h3 (Or.inr (Or.inl rfl))]; simp
    | some x =>
      rcases band_cases T x with hx | hx | hx
      · rw [h1 hc x rfl hx]; exact towards_near _ _
      · rw [h2 hc x rfl hx]; exact towards_near _ _
      · rw [h3 (Or.inr (Or.inr ⟨x, rfl, hx⟩))]; simp

theorem walk_near (C : Cfg K) (n : Nat) (p0 : Pos) (l : List Pos) (h : Walk C n p0 l) : ∀ (i : Nat) (p q : Pos),
    l[i]? = some q → l[i + 1]? = some p → ∀ t, (q t - p t).natAbs ≤ 1 := by
  induction h with
  | nil => intro i p q h; simp at h
  | first => intro i p q h1 h2; simp at h2
  | again _ ih =>
    intro i p q h1 h2 t
    cases i with
    | zero =>
      simp at h1 h2
      subst h1; subst h2
      simp
    | succ i => exact ih i p q (by simpa using h1) (by simpa using h2) t
  | step _ _ ha ih =>
    intro i p q h1 h2 t
    cases i with
    | zero =>
      simp at h1 h2
      subst h1; subst h2
      obtain ⟨r, g, _, _, hg, hn, _⟩ := ha
      by_cases ht : t ∈ g
      · exact wanted_near _ _ _ _ (hg t ht)
      · rw [hn t ht]; simp
    | succ i => exact ih i p q (by simpa using h1) (by simpa using h2) t

/-- C25: with the any-valid-tap strategy no tap moves by more than one position between two calculations. -/
theorem any_one_step (C : Cfg K) (fuel : Nat) (s s' : St) (r : Except Err (Output K)) (h : Ready C s) (hs : C.strategy = .any)
    (ho : optimize C fuel s = some (s', r)) :
    ∀ (i : Nat) (p q : Pos), s'.log[i]? = some q → s'.log[i + 1]? = some p → ∀ t, (q t - p t).natAbs ≤ 1 :=
  walk_near C s.calls s.pos s'.log (any_walks C fuel s s' r h hs ho)

/-! ## Examples -/

/-- Two transformers in series: transformer 0 has the inverted range 4..0 and controls its tap side, transformer 1 the range
0..4 and controls the other side. -/
def exTap (t : Nat) : Tap ℚ := if t = 0 then ⟨4, 0, true, true, 1, 1 / 10⟩ else ⟨0, 4, false, true, 1, 1 / 10⟩

/-- Voltages that depend on both positions; at the fourth call the calculation diverges. -/
def exSolve : Calc ℚ := fun n _ p =>
  if n = 3 then .error .diverge
  else .ok fun t => if t = 0 then some (1 + (2 - (p 0 : ℚ)) / 5) else some (1 + (2 - (p 0 : ℚ)) / 5 + (1 - (p 1 : ℚ)) / 8)

/-- The example grid with a strategy. -/
def exCfg (s : Strategy) : Cfg ℚ := ⟨exTap, [[0], [1]], exSolve, s⟩

/-- The start. -/
def exStart : St := ⟨fun t => if t = 0 then 4 else 3, fun _ _ => BinSearch.make 0 0 0 false, 0, []⟩

theorem example_ready (s : Strategy) : Ready (exCfg s) exStart := by
  refine ⟨?_, ?_, ?_, ?_, rfl⟩ <;> intro t ht <;>
  · simp [Cfg.trafos, exCfg] at ht
    rcases ht with rfl | rfl <;> simp [Tap.Holds, exCfg, exTap, exStart]

/-- What can be compared of a result: the error or the tap positions with the voltages, and the positions of all
calculations, the latest first. -/
def summary (r : Option (St × Except Err (Output ℚ))) :
    Option ((Err ⊕ (List (Nat × Int) × Option ℚ × Option ℚ)) × List (Int × Int)) :=
  r.map fun x =>
    (match x.2 with
      | .error e => .inl e
      | .ok o => .inr (o.taps, o.volt 0, o.volt 1), x.1.log.map fun p => (p 0, p 1))

set_option synthInstance.maxHeartbeats 200000 in
set_option synthInstance.maxSize 1000 in
/-- Transformer 0 is moved first, then, in spite of the failing calculation, transformer 1. -/
example : summary (optimize (exCfg .any) 100 exStart) =
    some (.inr ([(0, 2), (1, 1)], some 1, some 1), [(2, 1), (2, 1), (2, 2), (2, 2), (2, 3), (3, 3), (4, 3)]) := by
  decide +kernel

/-- The maximum and the fast strategy succeed as well. -/
example : (summary (optimize (exCfg .maximum) 100 exStart)).map (·.1) =
    some (.inr ([(0, 2), (1, 1)], some 1, some 1)) := by
  decide +kernel

example : (summary (optimize (exCfg .fastAny) 100 exStart)).map (·.1) =
    some (.inr ([(0, 2), (1, 1)], some 1, some 1)) := by
  decide +kernel

/-! ## The fast strategy -/

/-- A single transformer. -/
def oneCfg (T : Tap ℚ) (u : Int → ℚ) (s : Strategy) : Cfg ℚ :=
  ⟨fun _ => T, [[0]], fun _ _ p => .ok fun _ => some (u (p 0)), s⟩

/-- All taps at 0. -/
def zeroStart : St := ⟨fun _ => 0, fun _ _ => BinSearch.make 0 0 0 false, 0, []⟩

/-- The voltage falls when the tap is raised: only position 1, the end of the range, is valid. -/
def endTap : Tap ℚ := ⟨0, 1, false, true, 1, 1 / 10⟩
/-- Its voltage. -/
def endVolt (p : Int) : ℚ := 11 / 10 - (p : ℚ) / 10

/-- The voltage rises with the tap: no position is valid. -/
def gapTap : Tap ℚ := ⟨0, 2, true, true, 1, 1 / 10⟩
/-- Its voltage. -/
def gapVolt (p : Int) : ℚ := 9 / 10 + (p : ℚ) / 5

theorem end_ready (s : Strategy) : Ready (oneCfg endTap endVolt s) zeroStart := by
  refine ⟨?_, ?_, ?_, ?_, rfl⟩ <;> intro t ht <;> simp [Tap.Holds, oneCfg, endTap, zeroStart]

theorem gap_ready (s : Strategy) : Ready (oneCfg gapTap gapVolt s) zeroStart := by
  refine ⟨?_, ?_, ?_, ?_, rfl⟩ <;> intro t ht <;> simp [Tap.Holds, oneCfg, gapTap, zeroStart]

set_option synthInstance.maxHeartbeats 200000 in
set_option synthInstance.maxSize 1000 in
/-- C49 fails: the voltage is in the band at position 1, and the ordinary strategy finds that position in one step; the fast
one never tries it and raises an error. -/
theorem fast_misses_valid_tap :
    InBand endTap (endVolt 1) ∧
    (summary (optimize (oneCfg endTap endVolt .any) 10 zeroStart)).map (·.1) = some (.inr ([(0, 1)], some 1, some 1)) ∧
    summary (optimize (oneCfg endTap endVolt .fastAny) 10 zeroStart) =
      some (.inl .maxIter, [(0, 0), (0, 0)]) := by
  refine ⟨?_, ?_, ?_⟩
  · norm_num [InBand, endTap, endVolt]
  · decide +kernel
  · decide +kernel

set_option synthInstance.maxHeartbeats 200000 in
set_option synthInstance.maxSize 1000 in
/-- C49 fails: the fast strategy reports success at position 1, in the middle of the range, with a voltage above the band. -/
theorem fast_succeeds_out_of_band :
    summary (optimize (oneCfg gapTap gapVolt .fastAny) 10 zeroStart) = some (.inr ([(0, 1)], some (11 / 10), some (11 / 10)),
      [(1, 0), (1, 0), (0, 0), (0, 0), (1, 0), (0, 0), (1, 0), (0, 0)]) ∧
    TooHigh gapTap (11 / 10) ∧ ¬ Settled gapTap 1 (11 / 10) := by
  refine ⟨?_, ?_, ?_⟩
  · decide +kernel
  · norm_num [TooHigh, gapTap]
  · norm_num [Settled, InBand, TooHigh, TooLow, gapTap, Tap.lowEnd, Tap.highEnd]

end PGM.TapOpt
