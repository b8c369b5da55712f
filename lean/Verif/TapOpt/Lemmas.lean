import Verif.TapOpt.Spec
import Mathlib.Tactic.SplitIfs
import Mathlib.Data.List.Basic

/-!
# Lemmas on the tap position optimisation: ranges, updates, and the end of the loop
-/

namespace PGM.TapOpt

open PGM.Update

variable {K : Type}

/-! ## Steps -/

theorem stepUp_eq (T : Tap K) (p : Int) (h : T.Holds p) : stepUp T p = towards T.tapMax p := by
  unfold stepUp towards
  unfold Tap.Holds at h
  split_ifs <;> omega

theorem stepDown_eq (T : Tap K) (p : Int) (h : T.Holds p) : stepDown T p = towards T.tapMin p := by
  unfold stepDown towards
  unfold Tap.Holds at h
  split_ifs <;> omega

theorem voltageUp_eq (T : Tap K) (p : Int) (h : T.Holds p) : voltageUp T p = towards T.highEnd p := by
  unfold voltageUp Tap.highEnd
  split
  · exact stepUp_eq T p h
  · exact stepDown_eq T p h

theorem voltageDown_eq (T : Tap K) (p : Int) (h : T.Holds p) : voltageDown T p = towards T.lowEnd p := by
  unfold voltageDown Tap.lowEnd
  split
  · exact stepDown_eq T p h
  · exact stepUp_eq T p h

theorem holds_highEnd (T : Tap K) : T.Holds T.highEnd := by
  unfold Tap.Holds Tap.highEnd; split <;> omega

theorem holds_lowEnd (T : Tap K) : T.Holds T.lowEnd := by
  unfold Tap.Holds Tap.lowEnd; split <;> omega

theorem towards_holds (T : Tap K) {e p : Int} (he : T.Holds e) (hp : T.Holds p) : T.Holds (towards e p) := by
  unfold towards Tap.Holds at *
  split_ifs <;> omega

theorem towards_near (e p : Int) : (towards e p - p).natAbs ≤ 1 := by
  unfold towards; split_ifs <;> omega

theorem towards_self_iff (e p : Int) : towards e p = p ↔ p = e := by
  unfold towards; split_ifs <;> omega

/-! ## Updates -/

section
variable [Field K] [LinearOrder K]

theorem setTap_holds (T : Tap K) (cur x : Int) (h : T.Holds x) (hx : x ≠ -128) :
    (setTap T.tapMin T.tapMax cur x).1 = x := by
  unfold setTap naIntS
  unfold Tap.Holds at h
  split
  · rename_i hc
    rcases hc with hc | hc
    · exact absurd hc hx
    · exact hc.symm
  · unfold tapLimit
    omega

/-- The ends of the ranges are numbers. -/
def Limits (C : Cfg K) : Prop := ∀ t ∈ C.trafos, -128 < (C.T t).tapMin ∧ -128 < (C.T t).tapMax

omit [Field K] [LinearOrder K] in
theorem holds_ne (T : Tap K) (h : -128 < T.tapMin ∧ -128 < T.tapMax) {x : Int} (hx : T.Holds x) : x ≠ -128 := by
  unfold Tap.Holds at hx; omega

/-- The updates that the optimiser makes. -/
def GoodUps (C : Cfg K) (ups : List (Nat × Int)) : Prop := ∀ u ∈ ups, u.1 ∈ C.trafos ∧ (C.T u.1).Holds u.2

theorem updateOne_eq (C : Cfg K) (hl : Limits C) (p : Pos) (u : Nat × Int) (hu : u.1 ∈ C.trafos ∧ (C.T u.1).Holds u.2) :
    updateOne C p u = Function.update p u.1 u.2 := by
  unfold updateOne
  rw [setTap_holds _ _ _ hu.2 (holds_ne _ (hl _ hu.1) hu.2)]

/-- The position after updates is one of the new ones, or the old one. -/
theorem updates_spec (C : Cfg K) (hl : Limits C) (ups : List (Nat × Int)) : ∀ (p : Pos), GoodUps C ups → ∀ t,
    (∃ x, (t, x) ∈ ups ∧ ups.foldl (updateOne C) p t = x) ∨
    (ups.foldl (updateOne C) p t = p t ∧ ∀ x, (t, x) ∉ ups) := by
  induction ups with
  | nil => intro p _ t; right; simp
  | cons u ups ih =>
    intro p h t
    rw [List.foldl_cons, updateOne_eq C hl p u (h u List.mem_cons_self)]
    rcases ih (Function.update p u.1 u.2) (fun w hw => h w (List.mem_cons_of_mem _ hw)) t with ⟨x, hx, e⟩ | ⟨e, hx⟩
    · left; exact ⟨x, List.mem_cons_of_mem _ hx, e⟩
    · by_cases ht : t = u.1
      · left
        refine ⟨u.2, ?_, ?_⟩
        · rw [ht]; exact List.mem_cons_self
        · rw [e, ht, Function.update_self]
      · right
        refine ⟨?_, ?_⟩
        · rw [e, Function.update_of_ne ht]
        · intro x hm
          rcases List.mem_cons.1 hm with e' | hm
          · exact ht (by rw [← e'])
          · exact hx x hm

/-! ## Binary search -/

/-- A binary search stays within the range. -/
def BsOk (T : Tap K) (b : BinSearch) : Prop := T.Holds b.lower ∧ T.Holds b.upper ∧ T.Holds b.current

omit [Field K] [LinearOrder K] in
theorem midpoint_holds (T : Tap K) {a b : Int} (ha : T.Holds a) (hb : T.Holds b) : T.Holds (midpoint a b) := by
  unfold midpoint Tap.Holds at *
  split_ifs <;> omega

omit [Field K] [LinearOrder K] in
theorem mid_holds (T : Tap K) {b : BinSearch} (h : BsOk T b) (x : Bool) : T.Holds (b.mid x) := by
  unfold BinSearch.mid
  split
  · exact midpoint_holds T h.2.1 h.1
  · exact midpoint_holds T h.1 h.2.1

omit [Field K] [LinearOrder K] in
theorem make_ok (T : Tap K) {p : Int} (h : T.Holds p) (a : Bool) : BsOk T (BinSearch.make p T.tapMin T.tapMax a) := by
  refine ⟨?_, ?_, h⟩ <;> simp only [BinSearch.make] <;> unfold Tap.Holds <;> omega

omit [Field K] [LinearOrder K] in
theorem recalibrate_ok (T : Tap K) {b : BinSearch} (h : BsOk T b) (x : Bool) : BsOk T (b.recalibrate x) := by
  unfold BinSearch.recalibrate
  split
  · exact ⟨h.2.2, h.2.1, h.2.2⟩
  · exact ⟨h.1, h.2.2, h.2.2⟩

omit [Field K] [LinearOrder K] in
theorem adjust_ok (T : Tap K) {b : BinSearch} (h : BsOk T b) (x : Bool) : BsOk T (b.adjust x) := by
  have h' : BsOk T (if b.lastDown then { b with upper := b.current } else { b with lower := b.current }) := by
    split
    · exact ⟨h.1, h.2.2, h.2.2⟩
    · exact ⟨h.2.2, h.2.1, h.2.2⟩
  unfold BinSearch.adjust
  simp only
  generalize (if b.lastDown then { b with upper := b.current } else { b with lower := b.current } : BinSearch) = b' at h'
  split
  · exact ⟨h'.1, h'.2.1, mid_holds T h' _⟩
  · exact h'

omit [Field K] [LinearOrder K] in
theorem propose_ok (T : Tap K) {b : BinSearch} (h : BsOk T b) (x y : Bool) : BsOk T (b.propose x y) := by
  unfold BinSearch.propose
  simp only
  split
  · refine ⟨h.1, h.2.1, ?_⟩
    show T.Holds (if _ then _ else _)
    split
    · exact h.1
    · exact h.2.1
  · exact adjust_ok T (b := { b with lastDown := (y == b.tapReverse) != b.atTap }) ⟨h.1, h.2.1, h.2.2⟩ x

omit [Field K] [LinearOrder K] in
theorem repropose_ok (T : Tap K) {b : BinSearch} (h : BsOk T b) (x y : Bool) :
    BsOk T (b.repropose x y).1 ∧ T.Holds (b.repropose x y).2.1 := by
  have hm := mid_holds T h ((x != b.tapReverse) != b.atTap)
  unfold BinSearch.repropose
  simp only
  split
  · split
    · exact ⟨h, hm⟩
    · exact ⟨⟨h.1, h.2.1, h.2.2⟩, hm⟩
  · split
    · exact ⟨⟨h.1, h.2.1, hm⟩, hm⟩
    · exact ⟨⟨h.1, h.2.1, hm⟩, hm⟩

/-! ## The invariant -/

/-- Transformer `t` has place `j` in group `i`. -/
def At (C : Cfg K) (i j t : Nat) : Prop := (C.order.getD i [])[j]? = some t

omit [Field K] [LinearOrder K] in
theorem At.mem {C : Cfg K} {i j t : Nat} (h : At C i j t) : t ∈ C.trafos := by
  unfold At at h
  have h1 := List.mem_of_getElem? h
  rw [List.getD_eq_getElem?_getD] at h1
  cases hg : C.order[i]? with
  | none => rw [hg] at h1; simp at h1
  | some g =>
    rw [hg] at h1
    exact List.mem_flatten.2 ⟨g, List.mem_of_getElem? hg, h1⟩

/-- What holds throughout an optimisation that started at positions `p0`. -/
structure Ok (C : Cfg K) (p0 : Pos) (s : St) : Prop where
  pos : ∀ t ∈ C.trafos, (C.T t).Holds (s.pos t)
  frame : ∀ t, t ∉ C.trafos → s.pos t = p0 t
  bs : ∀ i j t, At C i j t → BsOk (C.T t) (s.bs i j)
  log : ∀ p ∈ s.log, (∀ t ∈ C.trafos, (C.T t).Holds (p t)) ∧ ∀ t, t ∉ C.trafos → p t = p0 t

omit [Field K] [LinearOrder K] in
theorem setBs_ok {C : Cfg K} {p0 : Pos} {s : St} (h : Ok C p0 s) {i j t : Nat} (hat : At C i j t) {b : BinSearch}
    (hb : BsOk (C.T t) b) : Ok C p0 (setBs s i j b) := by
  refine ⟨h.pos, h.frame, ?_, h.log⟩
  intro i' j' t' hat'
  show BsOk _ (Function.update s.bs i (Function.update (s.bs i) j b) i' j')
  by_cases hi : i' = i
  · subst hi
    rw [Function.update_self]
    by_cases hj : j' = j
    · subst hj
      rw [Function.update_self]
      unfold At at hat hat'
      rw [hat] at hat'
      cases hat'
      exact hb
    · rw [Function.update_of_ne hj]
      exact h.bs _ _ _ hat'
  · rw [Function.update_of_ne hi]
    exact h.bs _ _ _ hat'

theorem updateState_ok {C : Cfg K} (hl : Limits C) {p0 : Pos} {s : St} (h : Ok C p0 s) {ups : List (Nat × Int)}
    (hu : GoodUps C ups) : Ok C p0 (updateState C ups s) := by
  refine ⟨?_, ?_, h.bs, h.log⟩
  · intro t ht
    rcases updates_spec C hl ups s.pos hu t with ⟨x, hx, e⟩ | ⟨e, _⟩
    · show (C.T t).Holds (ups.foldl (updateOne C) s.pos t)
      rw [e]
      exact (hu _ hx).2
    · show (C.T t).Holds (ups.foldl (updateOne C) s.pos t)
      rw [e]
      exact h.pos t ht
  · intro t ht
    rcases updates_spec C hl ups s.pos hu t with ⟨x, hx, e⟩ | ⟨e, _⟩
    · exact absurd (hu _ hx).1 ht
    · show ups.foldl (updateOne C) s.pos t = _
      rw [e]
      exact h.frame t ht

omit [Field K] [LinearOrder K] in
theorem runCalc_ok {C : Cfg K} {p0 : Pos} {s : St} (h : Ok C p0 s) (m : Method) : Ok C p0 (runCalc C m s).1 := by
  refine ⟨h.pos, h.frame, h.bs, ?_⟩
  intro p hp
  rcases List.mem_cons.1 hp with rfl | hp
  · exact ⟨h.pos, h.frame⟩
  · exact h.log p hp

/-! ## Adjustments -/

/-- Only the binary searches may differ. -/
def Same (s s' : St) : Prop := s'.pos = s.pos ∧ s'.calls = s.calls ∧ s'.log = s.log

theorem Same.trans {a b c : St} (h1 : Same a b) (h2 : Same b c) : Same a c :=
  ⟨h2.1.trans h1.1, h2.2.1.trans h1.2.1, h2.2.2.trans h1.2.2⟩

/-- Where the scan moves a transformer. -/
def scanTarget (C : Cfg K) (v : Volt K) (t : Nat) (p : Int) : Int :=
  if (C.T t).connected then
    match cmpBand (C.T t) (v t) with
    | .gt => voltageDown (C.T t) p
    | .lt => voltageUp (C.T t) p
    | _ => p
  else p

theorem adjustScan_eq (C : Cfg K) (v : Volt K) (t : Nat) (s : St) :
    adjustScan C v t s = if scanTarget C v t (s.pos t) ≠ s.pos t then ([(t, scanTarget C v t (s.pos t))], true)
      else ([], false) := by
  unfold adjustScan scanTarget
  cases hc : (C.T t).connected <;> cases cmpBand (C.T t) (v t) <;> simp

theorem scanTarget_holds (C : Cfg K) (v : Volt K) (t : Nat) (p : Int) (hp : (C.T t).Holds p) :
    (C.T t).Holds (scanTarget C v t p) := by
  unfold scanTarget
  split
  · split
    · rw [voltageDown_eq _ _ hp]; exact towards_holds _ (holds_lowEnd _) hp
    · rw [voltageUp_eq _ _ hp]; exact towards_holds _ (holds_highEnd _) hp
    · exact hp
  · exact hp

theorem adjustScan_good (C : Cfg K) (v : Volt K) (t : Nat) (s : St) (ht : t ∈ C.trafos) (hp : (C.T t).Holds (s.pos t)) :
    GoodUps C (adjustScan C v t s).1 := by
  rw [adjustScan_eq]
  split
  · intro u hu
    simp only [List.mem_cons, List.not_mem_nil, or_false] at hu
    subst hu
    exact ⟨ht, scanTarget_holds C v t _ hp⟩
  · intro u hu; simp at hu

omit [LinearOrder K] [Field K] in
theorem adjustBsRest_ok {C : Cfg K} {p0 : Pos} {s : St} (h : Ok C p0 s) {t i j : Nat} (hat : At C i j t) {b : BinSearch}
    (hb : BsOk (C.T t) b) (c : Cmp) :
    Ok C p0 (adjustBsRest C t i j b c s).1 ∧ Same s (adjustBsRest C t i j b c s).1 ∧
    ∀ r, (adjustBsRest C t i j b c s).2 = .ok r → GoodUps C r.1 := by
  obtain ⟨h1, h2⟩ := repropose_ok (C.T t) (recalibrate_ok (C.T t) hb C.strategy.isMax) C.strategy.isMax b.lastDown
  unfold adjustBsRest
  simp only
  split
  · exact ⟨setBs_ok h hat (make_ok _ h2 _), ⟨rfl, rfl, rfl⟩, by simp⟩
  · refine ⟨setBs_ok h hat h1, ⟨rfl, rfl, rfl⟩, ?_⟩
    intro r hr
    simp only [Except.ok.injEq] at hr
    subst hr
    intro u hu
    simp only [List.mem_cons, List.not_mem_nil, or_false] at hu
    subst hu
    exact ⟨hat.mem, h2⟩

theorem adjustBs_ok {C : Cfg K} {p0 : Pos} {s : St} (h : Ok C p0 s) (v : Volt K) {t i j : Nat} (hat : At C i j t) :
    Ok C p0 (adjustBs C v t i j s).1 ∧ Same s (adjustBs C v t i j s).1 ∧
    ∀ r, (adjustBs C v t i j s).2 = .ok r → GoodUps C r.1 := by
  have triv : ∀ r : List (Nat × Int) × Bool, (Except.ok ([], false) : Except Err _) = .ok r → GoodUps C r.1 := by
    intro r hr
    simp only [Except.ok.injEq] at hr
    subst hr
    intro u hu
    simp at hu
  have hb0 := h.bs i j t hat
  unfold adjustBs
  split
  · exact ⟨h, ⟨rfl, rfl, rfl⟩, triv⟩
  · split
    · exact ⟨h, ⟨rfl, rfl, rfl⟩, triv⟩
    · simp only
      have hb : BsOk (C.T t) (if cmpBand (C.T t) (v t) ≠ .eq then
          (s.bs i j).propose C.strategy.isMax (cmpBand (C.T t) (v t) = .gt) else s.bs i j) := by
        split
        · exact propose_ok _ hb0 _ _
        · exact hb0
      generalize (if cmpBand (C.T t) (v t) ≠ .eq then
          (s.bs i j).propose C.strategy.isMax (cmpBand (C.T t) (v t) = .gt) else s.bs i j) = b at hb ⊢
      split
      · refine ⟨setBs_ok h hat hb, ⟨rfl, rfl, rfl⟩, ?_⟩
        intro r hr
        simp only [Except.ok.injEq] at hr
        subst hr
        intro u hu
        simp only [List.mem_cons, List.not_mem_nil, or_false] at hu
        subst hu
        exact ⟨hat.mem, hb.2.2⟩
      · split
        · exact ⟨setBs_ok h hat hb, ⟨rfl, rfl, rfl⟩, triv⟩
        · exact adjustBsRest_ok h hat hb _

theorem adjustOne_ok {C : Cfg K} {p0 : Pos} {s : St} (h : Ok C p0 s) (srch : Search) (v : Volt K) {t i j : Nat}
    (hat : At C i j t) :
    Ok C p0 (adjustOne C srch v t i j s).1 ∧ Same s (adjustOne C srch v t i j s).1 ∧
    ∀ r, (adjustOne C srch v t i j s).2 = .ok r → GoodUps C r.1 := by
  unfold adjustOne
  cases srch with
  | binary => exact adjustBs_ok h v hat
  | linear =>
    refine ⟨h, ⟨rfl, rfl, rfl⟩, ?_⟩
    intro r hr
    simp only [Except.ok.injEq] at hr
    subst hr
    exact adjustScan_good C v t s hat.mem (h.pos t hat.mem)

theorem adjustGroup_ok {C : Cfg K} {p0 : Pos} (srch : Search) (v : Volt K) (i : Nat) : ∀ (l : List Nat) (j : Nat)
    (ups : List (Nat × Int)) (ch : Bool) (s : St), Ok C p0 s → (∀ (k : Nat) (t : Nat), l[k]? = some t → At C i (j + k) t) →
    GoodUps C ups →
    Ok C p0 (adjustGroup C srch v i l j ups ch s).1 ∧ Same s (adjustGroup C srch v i l j ups ch s).1 ∧
    ∀ r, (adjustGroup C srch v i l j ups ch s).2 = .ok r → GoodUps C r.1 := by
  intro l
  induction l with
  | nil =>
    intro j ups ch s h _ hu
    refine ⟨h, ⟨rfl, rfl, rfl⟩, ?_⟩
    intro r hr
    simp only [adjustGroup, Except.ok.injEq] at hr
    subst hr
    exact hu
  | cons t l ih =>
    intro j ups ch s h hat hu
    obtain ⟨h1, h2, h3⟩ := adjustOne_ok h srch v (hat 0 t rfl)
    simp only [adjustGroup]
    cases ha : adjustOne C srch v t i j s with
    | mk s' r =>
      have e : j + 0 = j := rfl
      rw [e, ha] at h1 h2 h3
      cases r with
      | error e => exact ⟨h1, h2, by simp⟩
      | ok r =>
        have := ih (j + 1) (ups ++ r.1) (r.2 || ch) s' h1 (by
          intro k t' hk
          have := hat (k + 1) t' (by simpa using hk)
          rwa [Nat.add_assoc, Nat.add_comm 1 k]) (by
          intro u hu'
          rcases List.mem_append.1 hu' with hu' | hu'
          · exact hu u hu'
          · exact h3 r rfl u hu')
        exact ⟨this.1, h2.trans this.2.1, this.2.2⟩

theorem adjustRanks_ok {C : Cfg K} {p0 : Pos} (srch : Search) (v : Volt K) : ∀ (gs : List (List Nat)) (i : Nat)
    (ups : List (Nat × Int)) (s : St), Ok C p0 s → (∀ (k : Nat) (g : List Nat), gs[k]? = some g → C.order[i + k]? = some g) →
    GoodUps C ups →
    Ok C p0 (adjustRanks C srch v gs i ups s).1 ∧ Same s (adjustRanks C srch v gs i ups s).1 ∧
    ∀ r, (adjustRanks C srch v gs i ups s).2 = .ok (some r) → GoodUps C r.1 ∧ r.2 < C.order.length := by
  intro gs
  induction gs with
  | nil =>
    intro i ups s h _ _
    refine ⟨h, ⟨rfl, rfl, rfl⟩, ?_⟩
    intro r hr
    simp [adjustRanks] at hr
  | cons g gs ih =>
    intro i ups s h hg hu
    have hgi : C.order[i]? = some g := hg 0 g rfl
    obtain ⟨h1, h2, h3⟩ := adjustGroup_ok srch v i g 0 ups false s h (by
      intro k t hk
      unfold At
      rw [Nat.zero_add, List.getD_eq_getElem?_getD, hgi]
      exact hk) hu
    simp only [adjustRanks]
    cases ha : adjustGroup C srch v i g 0 ups false s with
    | mk s' r =>
      rw [ha] at h1 h2 h3
      cases r with
      | error e => exact ⟨h1, h2, by simp⟩
      | ok r =>
        obtain ⟨ups', ch⟩ := r
        cases ch with
        | true =>
          refine ⟨h1, h2, ?_⟩
          intro r hr
          simp only [Except.ok.injEq, Option.some.injEq] at hr
          subst hr
          exact ⟨h3 _ rfl, (List.getElem?_eq_some_iff.1 hgi).1⟩
        | false =>
          have := ih (i + 1) ups' s' h1 (by
            intro k g' hk
            have := hg (k + 1) g' (by simpa using hk)
            rwa [Nat.add_assoc, Nat.add_comm 1 k]) (h3 _ rfl)
          exact ⟨this.1, h2.trans this.2.1, this.2.2⟩

/-! ## The loop ends -/

/-- The counters as a number in mixed radix. -/
def value : List Nat → List Nat → Nat
  | c :: cs, b :: bs => c * (bs.map fun r => 2 * r + 1).foldr (· * ·) 1 + value cs bs
  | _, _ => 0

/-- The counters are below their limits. -/
def Below : List Nat → List Nat → Prop
  | c :: cs, b :: bs => c ≤ 2 * b ∧ Below cs bs
  | [], [] => True
  | _, _ => False

/-- The number of combinations. -/
def combos (bs : List Nat) : Nat := (bs.map fun r => 2 * r + 1).foldr (· * ·) 1

theorem value_lt : ∀ (cs bs : List Nat), Below cs bs → value cs bs < combos bs := by
  intro cs
  induction cs with
  | nil => intro bs h; cases bs <;> simp_all [Below, value, combos]
  | cons c cs ih =>
    intro bs h
    cases bs with
    | nil => simp [Below] at h
    | cons b bs =>
      obtain ⟨h1, h2⟩ := h
      have := ih bs h2
      simp only [value, combos, List.map_cons, List.foldr_cons] at this ⊢
      generalize (bs.map fun r => 2 * r + 1).foldr (· * ·) 1 = P at this ⊢
      calc c * P + value cs bs < c * P + P := by omega
        _ = (c + 1) * P := by rw [Nat.add_mul, Nat.one_mul]
        _ ≤ (2 * b + 1) * P := Nat.mul_le_mul_right P (by omega)

theorem value_zero : ∀ (cs bs : List Nat), value (cs.map fun _ => 0) bs = 0 := by
  intro cs
  induction cs with
  | nil => intro bs; simp [value]
  | cons c cs ih =>
    intro bs
    cases bs with
    | nil => rfl
    | cons b bs =>
      rw [List.map_cons]
      simp only [value, ih, Nat.zero_mul]

theorem below_zero : ∀ (cs bs : List Nat), cs.length = bs.length → Below (cs.map fun _ => 0) bs := by
  intro cs
  induction cs with
  | nil => intro bs h; cases bs <;> simp_all [Below]
  | cons c cs ih =>
    intro bs h
    cases bs with
    | nil => simp at h
    | cons b bs => exact ⟨Nat.zero_le _, ih bs (by simpa using h)⟩

theorem below_length : ∀ (cs bs : List Nat), Below cs bs → cs.length = bs.length := by
  intro cs
  induction cs with
  | nil => intro bs h; cases bs <;> simp_all [Below]
  | cons c cs ih =>
    intro bs h
    cases bs with
    | nil => simp [Below] at h
    | cons b bs => simp [ih bs h.2]

theorem bump_spec : ∀ (cs bs : List Nat) (r : Nat), Below cs bs → r < cs.length →
    ¬ (bump cs r).getD r 0 > 2 * bs.getD r 0 → Below (bump cs r) bs ∧ value cs bs < value (bump cs r) bs := by
  intro cs
  induction cs with
  | nil => intro bs r _ hr; simp at hr
  | cons c cs ih =>
    intro bs r h hr hb
    cases bs with
    | nil => simp [Below] at h
    | cons b bs =>
      obtain ⟨h1, h2⟩ := h
      cases r with
      | zero =>
        simp only [bump, List.getD_cons_zero] at hb ⊢
        refine ⟨⟨by omega, below_zero cs bs (below_length cs bs h2)⟩, ?_⟩
        have := value_lt cs bs h2
        simp only [value, value_zero, Nat.add_zero]
        unfold combos at this
        rw [Nat.add_mul, Nat.one_mul]
        omega
      | succ r =>
        simp only [bump, List.getD_cons_succ] at hb ⊢
        have := ih bs r h2 (by simpa using hr) hb
        refine ⟨⟨h1, this.1⟩, ?_⟩
        simp only [value]
        omega

omit [Field K] [LinearOrder K] in
theorem bound_eq (C : Cfg K) : bound C = combos (maxRanges C) := rfl

theorem adjustGroup_rank (C : Cfg K) (srch : Search) (v : Volt K) : ∀ (gs : List (List Nat)) (i : Nat)
    (ups : List (Nat × Int)) (s : St) (r : List (Nat × Int) × Nat),
    (adjustRanks C srch v gs i ups s).2 = .ok (some r) → i ≤ r.2 ∧ r.2 < i + gs.length := by
  intro gs
  induction gs with
  | nil => intro i ups s r h; simp [adjustRanks] at h
  | cons g gs ih =>
    intro i ups s r h
    simp only [adjustRanks] at h
    cases ha : adjustGroup C srch v i g 0 ups false s with
    | mk s' q =>
      rw [ha] at h
      cases q with
      | error e => simp at h
      | ok q =>
        obtain ⟨ups', ch⟩ := q
        cases ch with
        | true =>
          simp only [Except.ok.injEq, Option.some.injEq] at h
          subst h
          simp
        | false =>
          have := ih _ _ _ _ h
          simp only [List.length_cons]
          omega

theorem iterLoop_ends (C : Cfg K) (m : Method) (srch : Search) : ∀ (fuel : Nat) (counts : List Nat) (v : Volt K) (s : St),
    Below counts (maxRanges C) → bound C ≤ fuel + value counts (maxRanges C) + 1 → iterLoop C m srch fuel counts v s ≠ none := by
  intro fuel
  induction fuel with
  | zero =>
    intro counts v s hb hf
    unfold iterLoop
    cases ha : adjustRanks C srch v C.order 0 [] s with
    | mk s' q =>
      cases q with
      | error e => simp
      | ok q =>
        cases q with
        | none => simp
        | some q =>
          obtain ⟨ups, r⟩ := q
          have hr := adjustGroup_rank C srch v C.order 0 [] s (ups, r) (by rw [ha])
          simp only
          have hlen : counts.length = C.order.length := by
            rw [below_length _ _ hb, maxRanges, List.length_map]
          by_cases hc : (bump counts r).getD r 0 > 2 * (maxRanges C).getD r 0
          · rw [if_pos hc]; simp
          · exfalso
            obtain ⟨h1, h2⟩ := bump_spec counts (maxRanges C) r hb (by rw [hlen]; simpa using hr.2) hc
            have := value_lt _ _ h1
            rw [bound_eq] at hf
            omega
  | succ fuel ih =>
    intro counts v s hb hf
    unfold iterLoop
    cases ha : adjustRanks C srch v C.order 0 [] s with
    | mk s' q =>
      cases q with
      | error e => simp
      | ok q =>
        cases q with
        | none => simp
        | some q =>
          obtain ⟨ups, r⟩ := q
          have hr := adjustGroup_rank C srch v C.order 0 [] s (ups, r) (by rw [ha])
          simp only
          have hlen : counts.length = C.order.length := by
            rw [below_length _ _ hb, maxRanges, List.length_map]
          by_cases hc : (bump counts r).getD r 0 > 2 * (maxRanges C).getD r 0
          · rw [if_pos hc]; simp
          · rw [if_neg hc]
            obtain ⟨h1, h2⟩ := bump_spec counts (maxRanges C) r hb (by rw [hlen]; simpa using hr.2) hc
            cases hrc : runCalc C m (updateState C ups s') with
            | mk s'' q =>
              cases q with
              | error e => simp
              | ok v' => exact ih _ _ _ h1 (by omega)

theorem iterate_ends (C : Cfg K) (m : Method) (srch : Search) (fuel : Nat) (s : St) (hf : bound C ≤ fuel + 1) :
    iterate C m srch fuel s ≠ none := by
  unfold iterate
  cases hrc : runCalc C m s with
  | mk s' q =>
    cases q with
    | error e => simp
    | ok v =>
      have e : (C.order.map fun _ => 0) = ((maxRanges C).map fun _ => 0) := by
        unfold maxRanges
        rw [List.map_map]
        rfl
      rw [e]
      apply iterLoop_ends
      · exact below_zero _ _ rfl
      · rw [value_zero]; omega

theorem fallback_ends (C : Cfg K) (srch : Search) (fuel : Nat) (s : St) (hf : bound C ≤ fuel + 1) :
    iterateWithFallback C srch fuel s ≠ none := by
  unfold iterateWithFallback
  cases h1 : iterate C .chosen srch fuel s with
  | none => exact absurd h1 (iterate_ends _ _ _ _ _ hf)
  | some r =>
    obtain ⟨s', q⟩ := r
    cases q with
    | ok v => simp
    | error e =>
      simp only
      split
      · unfold fallback
        cases h2 : iterate C .linear srch fuel s' with
        | none => exact absurd h2 (iterate_ends _ _ _ _ _ hf)
        | some r =>
          obtain ⟨s'', q⟩ := r
          cases q with
          | ok v => exact iterate_ends _ _ _ _ _ hf
          | error e => simp
      · simp

end

end PGM.TapOpt
