import Verif.PowerFlow.NewtonLimits

/-!
# Newton-Raphson power flow: voltage-controlled buses and reactive limits: properties (C23)
-/

namespace PGM.PowerFlow.Newton

open PGM.PowerFlow

variable {K : Type} [Field K] [LinearOrder K] [IsStrictOrderedRing K] {s : Symm}

/-! ## Specification -/

/-- The regulators that are switched on, of load/generators of the bus that are switched on. -/
def regulatorsOf (inp : Input s K) (b : BusIn) : List (RegIn K) :=
  b.loadGens.flatMap fun g => if (inp.gen g).on then (inp.gen g).regs.filter (·.on) else []

/-- The sum of limits, absent as soon as one of them is. -/
def IsSum (l : List (Option K)) (m : Option K) : Prop :=
  (∀ xs : List K, l = xs.map some → m = some xs.sum) ∧ (none ∈ l → m = none)

/-- What the validation of the model guarantees (C41, C03): a load/generator has at most one active regulator and belongs to one
bus. -/
structure Valid (inp : Input s K) : Prop where
  oneRegulator : ∀ g, ((inp.gen g).regs.filter (·.on)).length ≤ 1
  nodup : ∀ b ∈ inp.buses, b.loadGens.Nodup
  disjoint : ∀ (i j : Nat) (hi : i < inp.buses.length) (hj : j < inp.buses.length), i ≠ j →
    ∀ g, g ∈ inp.buses[i].loadGens → g ∉ inp.buses[j].loadGens

/-- The limit of a regulator in the direction of a violation. -/
def limitOf (v : Violation) (l : Limits K) : Option K :=
  match v with
  | .upper => l.qMax
  | .lower => l.qMin
  | .none => none

/-! ## Initial types and limits -/

/-- The effect of an active regulator. -/
def onReg (c : Control K) (r : RegIn K) : Control K :=
  { c with type := .pv, uRef := r.uRef, qMin := addNan c.qMin r.lim.qMin, qMax := addNan c.qMax r.lim.qMax }

theorem foldl_regulators (inp : Input s K) (gs : List Nat) (c : Control K) :
    gs.foldl (addLoadGen inp) c =
      (gs.flatMap fun g => if (inp.gen g).on then (inp.gen g).regs.filter (·.on) else []).foldl
        onReg c := by
  induction gs generalizing c with
  | nil => rfl
  | cons g gs ih =>
    rw [List.foldl_cons, ih, List.flatMap_cons, List.foldl_append]
    congr 1
    unfold addLoadGen
    split_ifs
    · generalize (inp.gen g).regs = rs
      induction rs generalizing c with
      | nil => rfl
      | cons r rs ihr =>
        rw [List.foldl_cons]
        unfold addRegulator
        cases hr : r.on
        · simp only [Bool.false_eq_true, if_false, List.filter_cons, hr]
          exact ihr c
        · simp only [if_true, List.filter_cons, hr, List.foldl_cons]
          exact ihr _
    · rfl

theorem fold_control (rs : List (RegIn K)) (c : Control K) :
    let c' := rs.foldl onReg c
    (c'.type = if rs = [] then c.type else .pv) ∧ c'.hasLimits = c.hasLimits ∧ c'.violated = c.violated ∧
    c'.qMin = rs.foldl (fun m r => addNan m r.lim.qMin) c.qMin ∧ c'.qMax = rs.foldl (fun m r => addNan m r.lim.qMax) c.qMax ∧
    (rs ≠ [] → ∃ r ∈ rs, c'.uRef = r.uRef) := by
  induction rs generalizing c with
  | nil => simp
  | cons r rs ih =>
    simp only [List.foldl_cons]
    obtain ⟨i1, i2, i3, i4, i5, i6⟩ := ih (onReg c r)
    refine ⟨?_, i2, i3, i4, i5, fun _ => ?_⟩
    · rw [i1]; simp [onReg]
    · by_cases h : rs = []
      · subst h; exact ⟨r, by simp, rfl⟩
      · obtain ⟨x, hx, he⟩ := i6 h
        exact ⟨x, by simp [hx], he⟩

theorem fold_isSum (f : RegIn K → Option K) (rs : List (RegIn K)) :
    IsSum (rs.map f) (rs.foldl (fun m r => addNan m (f r)) (some 0)) := by
  have h1 : ∀ (rs : List (RegIn K)) (x : K) (xs : List K), rs.map f = xs.map some →
      rs.foldl (fun m r => addNan m (f r)) (some x) = some (x + xs.sum) := by
    intro rs
    induction rs with
    | nil =>
      intro x xs h
      cases xs with
      | nil => simp
      | cons => simp at h
    | cons r rs ih =>
      intro x xs h
      cases xs with
      | nil => simp at h
      | cons y ys =>
        simp only [List.map_cons, List.cons.injEq] at h
        rw [List.foldl_cons, h.1, show addNan (some x) (some y) = some (x + y) from rfl, ih (x + y) ys h.2, List.sum_cons, add_assoc]
  have h0 : ∀ (rs : List (RegIn K)), rs.foldl (fun m r => addNan m (f r)) none = none := by
    intro rs
    induction rs with
    | nil => rfl
    | cons r rs ih => rw [List.foldl_cons]; exact ih
  have h2 : ∀ (rs : List (RegIn K)) (m : Option K), none ∈ rs.map f → rs.foldl (fun m r => addNan m (f r)) m = none := by
    intro rs
    induction rs with
    | nil => intro m h; simp at h
    | cons r rs ih =>
      intro m h
      rw [List.foldl_cons]
      rw [List.map_cons, List.mem_cons] at h
      rcases h with h | h
      · rw [← h]
        have : addNan m none = none := by cases m <;> rfl
        rw [this]; exact h0 rs
      · exact ih _ h
  refine ⟨fun xs h => by rw [h1 rs 0 xs h, zero_add], h2 rs _⟩

/-- At the start a bus is voltage controlled if and only if it has no source and an active regulator; its limits are the sums of
the limits of its active regulators, its reference voltage is the one of a regulator, and no limit counts as violated. -/
theorem initial_control (inp : Input s K) (i : Nat) (b : BusIn) (hb : inp.buses[i]? = some b) :
    (((start inp).ctl i).type = .pv ↔ b.hasSource = false ∧ regulatorsOf inp b ≠ []) ∧
    (((start inp).ctl i).type = .slack ↔ b.hasSource = true) ∧
    ((start inp).ctl i).violated = .none ∧
    (((start inp).ctl i).type = .pv →
      IsSum ((regulatorsOf inp b).map (·.lim.qMin)) ((start inp).ctl i).qMin ∧
      IsSum ((regulatorsOf inp b).map (·.lim.qMax)) ((start inp).ctl i).qMax ∧
      (((start inp).ctl i).hasLimits = true ↔ ((start inp).ctl i).qMin ≠ none ∨ ((start inp).ctl i).qMax ≠ none) ∧
      ∃ r ∈ regulatorsOf inp b, ((start inp).ctl i).uRef = r.uRef) := by
  have hc : (start inp).ctl i = busControl inp b := by simp only [start, hb]
  rw [hc]
  unfold busControl
  cases hs : b.hasSource
  · simp only [Bool.false_eq_true, if_false, true_and]
    have hf := fold_control (regulatorsOf inp b) (Control.fresh : Control K)
    have he : b.loadGens.foldl (addLoadGen inp) Control.fresh = _ := foldl_regulators inp b.loadGens Control.fresh
    rw [he]
    simp only at hf
    unfold regulatorsOf at hf ⊢
    obtain ⟨f1, f2, f3, f4, f5, f6⟩ := hf
    by_cases hr : (b.loadGens.flatMap fun g => if (inp.gen g).on then (inp.gen g).regs.filter (·.on) else []) = []
    · rw [hr] at f1 ⊢
      simp [Control.fresh]
    · rw [if_neg hr] at f1
      rw [if_pos f1]
      simp only [f1, f3, true_iff, reduceCtorEq, false_iff]
      refine ⟨hr, trivial, rfl, fun _ => ⟨?_, ?_, ?_, f6 hr⟩⟩
      · rw [f4]; exact fold_isSum (fun r => r.lim.qMin) _
      · rw [f5]; exact fold_isSum (fun r => r.lim.qMax) _
      · simp [Option.isSome_iff_ne_none]
  · simp [Control.fresh]

/-! ## One check of the limits -/

theorem clamp_inner (tol : K) (g : LoadGen s K) (i : Nat) (limit : Violation) (rs : List (RegIn K))
    (cl : Nat → Option (RV s K)) :
    (∀ j, j ≠ i → (rs.foldl (fun cl r => if g.on && r.on then Function.update cl i (clampValue tol limit g r) else cl) cl) j =
      cl j) ∧
    (g.on = false ∨ rs.filter (·.on) = [] →
      (rs.foldl (fun cl r => if g.on && r.on then Function.update cl i (clampValue tol limit g r) else cl) cl) i = cl i) ∧
    (∀ r, g.on = true → rs.filter (·.on) = [r] →
      (rs.foldl (fun cl r => if g.on && r.on then Function.update cl i (clampValue tol limit g r) else cl) cl) i =
        clampValue tol limit g r) := by
  induction rs generalizing cl with
  | nil => simp
  | cons x xs ih =>
    rw [List.foldl_cons]
    obtain ⟨i1, i2, i3⟩ := ih (if g.on && x.on then Function.update cl i (clampValue tol limit g x) else cl)
    refine ⟨fun j hj => ?_, fun h => ?_, fun r hg hr => ?_⟩
    · rw [i1 j hj]
      split_ifs
      · rw [Function.update_of_ne hj]
      · rfl
    · have hx : (g.on && x.on) = false := by
        rcases h with h | h
        · simp [h]
        · cases hx : x.on
          · simp
          · simp [List.filter_cons, hx] at h
      rw [hx] at i2 ⊢
      simp only [Bool.false_eq_true, if_false] at i2 ⊢
      apply i2
      rcases h with h | h
      · exact Or.inl h
      · right
        cases hx : x.on
        · simpa [List.filter_cons, hx] using h
        · simp [List.filter_cons, hx] at h
    · cases hx : x.on
      · rw [hx] at i3
        simp only [Bool.and_false, Bool.false_eq_true, if_false] at i3 ⊢
        exact i3 r hg (by simpa [List.filter_cons, hx] using hr)
      · simp only [List.filter_cons, hx, if_true, List.cons.injEq] at hr
        rw [hx, hg] at i2
        simp only [Bool.and_self, if_true] at i2
        rw [hg]
        simp only [Bool.and_self, if_true]
        rw [i2 (Or.inr hr.2), hr.1]
        simp

theorem clamp_spec (tol : K) (inp : Input s K) (limit : Violation) (gs : List Nat) (hn : gs.Nodup)
    (cl : Nat → Option (RV s K)) :
    (∀ g, g ∉ gs → clampGens tol inp limit cl gs g = cl g) ∧
    (∀ g ∈ gs, (inp.gen g).on = false ∨ (inp.gen g).regs.filter (·.on) = [] → clampGens tol inp limit cl gs g = cl g) ∧
    (∀ g ∈ gs, ∀ r, (inp.gen g).on = true → (inp.gen g).regs.filter (·.on) = [r] →
      clampGens tol inp limit cl gs g = clampValue tol limit (inp.gen g) r) := by
  induction gs generalizing cl with
  | nil => simp [clampGens]
  | cons g gs ih =>
    rw [List.nodup_cons] at hn
    obtain ⟨i1, i2, i3⟩ := clamp_inner tol (inp.gen g) g limit (inp.gen g).regs cl
    set cl' := (inp.gen g).regs.foldl
      (fun cl r => if (inp.gen g).on && r.on then Function.update cl g (clampValue tol limit (inp.gen g) r) else cl) cl with hcl
    have hstep : clampGens tol inp limit cl (g :: gs) = clampGens tol inp limit cl' gs := rfl
    obtain ⟨k1, k2, k3⟩ := ih hn.2 cl'
    rw [hstep]
    refine ⟨fun j hj => ?_, fun j hj h => ?_, fun j hj r ho hr => ?_⟩
    · simp only [List.mem_cons, not_or] at hj
      rw [k1 j hj.2, i1 j hj.1]
    · rcases List.mem_cons.mp hj with rfl | hj'
      · rw [k1 _ hn.1, i2 h]
      · rw [k2 j hj' h]
        have hne : j ≠ g := fun e => hn.1 (e ▸ hj')
        exact i1 j hne
    · rcases List.mem_cons.mp hj with rfl | hj'
      · rw [k1 _ hn.1, i3 r ho hr]
      · exact k3 j hj' r ho hr

theorem violatedLimit_iff (tol : K) (q : RV s K) (lo hi : Option K) :
    (violatedLimit tol q lo hi = .upper ↔ ∃ m, hi = some m ∧ m + tol < total q) ∧
    (violatedLimit tol q lo hi = .lower → ∃ m, lo = some m ∧ total q < m - tol) ∧
    (violatedLimit tol q lo hi = .none ↔ (∀ m, hi = some m → total q ≤ m + tol) ∧ (∀ m, lo = some m → m - tol ≤ total q)) := by
  have hsub : ∀ a b : K, (a < b - tol) = (a + tol < b) := fun a b => propext lt_sub_iff_add_lt
  unfold violatedLimit
  rcases hi with _ | hi
  · rcases lo with _ | lo
    · simp
    · simp only [Option.any_none, Bool.false_eq_true, if_false, Option.any_some, decide_eq_true_eq]
      split_ifs with h <;> simp_all [hsub]
  · simp only [Option.any_some, decide_eq_true_eq]
    rcases lo with _ | lo
    · simp only [Option.any_none, Bool.false_eq_true, if_false]
      split_ifs with h <;> simp_all [hsub]
    · simp only [Option.any_some, decide_eq_true_eq]
      split_ifs with h1 h2 <;> simp_all [hsub]

/-- The effect of one bus: nothing, or the bus was voltage controlled, exceeded a limit, and is now fixed at it. -/
theorem enforceBus_spec (tol : K) (inp : Input s K) (dq : Nat → RV s K) (st st' : State s K) (b : Nat)
    (h : enforceBus tol inp dq st b = some st') :
    st'.countdown = st.countdown ∧
    ((st' = st ∧ ((st.ctl b).type = .pv → (st.ctl b).hasLimits = true →
        ∃ spec, specifiedRegulating inp (((inp.buses[b]?).map (·.loadGens)).getD []) = some spec ∧
          violatedLimit tol (spec - dq b) (st.ctl b).qMin (st.ctl b).qMax = .none)) ∨
      ((st.ctl b).type = .pv ∧ (st.ctl b).hasLimits = true ∧
        ∃ spec limit, specifiedRegulating inp (((inp.buses[b]?).map (·.loadGens)).getD []) = some spec ∧
          limit = violatedLimit tol (spec - dq b) (st.ctl b).qMin (st.ctl b).qMax ∧ limit ≠ .none ∧
          st'.clamped = clampGens tol inp limit st.clamped (((inp.buses[b]?).map (·.loadGens)).getD []) ∧
          st'.ctl = Function.update st.ctl b { st.ctl b with violated := limit, type := .pq })) := by
  unfold enforceBus at h
  simp only at h
  split_ifs at h with h1
  · injection h with h
    subst h
    refine ⟨rfl, Or.inl ⟨rfl, fun h2 h3 => ?_⟩⟩
    rcases h1 with h1 | h1
    · exact absurd h2 h1
    · rw [h3] at h1; simp at h1
  · push Not at h1
    have hl : (st.ctl b).hasLimits = true := by simpa using h1.2
    cases hs : specifiedRegulating inp (((inp.buses[b]?).map (·.loadGens)).getD []) with
    | none => rw [hs] at h; simp at h
    | some spec =>
      rw [hs] at h
      simp only at h
      split_ifs at h with h2
      · injection h with h
        subst h
        exact ⟨rfl, Or.inl ⟨rfl, fun _ _ => ⟨spec, rfl, h2⟩⟩⟩
      · injection h with h
        subst h
        exact ⟨rfl, Or.inr ⟨h1.1, hl, spec, _, rfl, rfl, h2, rfl, rfl⟩⟩

/-- A bus that is not voltage controlled is never touched by a check. -/
theorem enforceBus_keeps (tol : K) (inp : Input s K) (hv : Valid inp) (dq : Nat → RV s K) (st st' : State s K) (b i : Nat)
    (hb : b < inp.buses.length) (hi : i < inp.buses.length) (hp : b ≠ i ∨ (st.ctl i).type ≠ .pv)
    (h : enforceBus tol inp dq st b = some st') :
    st'.ctl i = st.ctl i ∧ ∀ g ∈ inp.buses[i].loadGens, st'.clamped g = st.clamped g := by
  obtain ⟨_, h2⟩ := enforceBus_spec tol inp dq st st' b h
  rcases h2 with ⟨rfl, _⟩ | ⟨p1, p2, spec, limit, p3, p4, p5, p6, p7⟩
  · exact ⟨rfl, fun _ _ => rfl⟩
  · have hne : b ≠ i := by
      rcases hp with hp | hp
      · exact hp
      · rintro rfl; exact hp p1
    refine ⟨by rw [p7, Function.update_of_ne hne.symm], fun g hg => ?_⟩
    rw [p6]
    rw [List.getElem?_eq_getElem hb] at *
    simp only [Option.map_some, Option.getD_some]
    exact (clamp_spec tol inp limit _ (hv.nodup _ (List.getElem_mem hb)) st.clamped).1 g (hv.disjoint i b hi hb hne.symm g hg)

/-- The check of a list of different buses, seen from one bus. -/
theorem enforce_list (tol : K) (inp : Input s K) (hv : Valid inp) (dq : Nat → RV s K) (i : Nat) (hi : i < inp.buses.length)
    (bs : List Nat) (hbs : ∀ b ∈ bs, b < inp.buses.length) (hn : bs.Nodup) (st st' : State s K)
    (h : bs.foldlM (enforceBus tol inp dq) st = some st') :
    st'.countdown = st.countdown ∧
    ((i ∉ bs ∨ (st.ctl i).type ≠ .pv) →
      st'.ctl i = st.ctl i ∧ ∀ g ∈ inp.buses[i].loadGens, st'.clamped g = st.clamped g) ∧
    (i ∈ bs → ∃ a a', enforceBus tol inp dq a i = some a' ∧ a.ctl i = st.ctl i ∧ a'.ctl i = st'.ctl i ∧
      ∀ g ∈ inp.buses[i].loadGens, a.clamped g = st.clamped g ∧ a'.clamped g = st'.clamped g) := by
  induction bs generalizing st with
  | nil =>
    simp only [List.foldlM_nil] at h
    injection h with h
    subst h
    simp
  | cons b bs ih =>
    rw [List.foldlM_cons] at h
    rw [List.nodup_cons] at hn
    cases hb : enforceBus tol inp dq st b with
    | none => rw [hb] at h; simp at h
    | some st1 =>
      rw [hb] at h
      simp only [Option.bind_eq_bind, Option.bind_some] at h
      have hbl := hbs b (by simp)
      obtain ⟨i1, i2, i3⟩ := ih (fun b hb => hbs b (by simp [hb])) hn.2 st1 h
      have hc := (enforceBus_spec tol inp dq st st1 b hb).1
      refine ⟨i1.trans hc, fun hcond => ?_, fun hmem => ?_⟩
      · have hp : b ≠ i ∨ (st.ctl i).type ≠ .pv := by
          rcases hcond with hcond | hcond
          · left; rintro rfl; exact hcond (by simp)
          · exact Or.inr hcond
        obtain ⟨k1, k2⟩ := enforceBus_keeps tol inp hv dq st st1 b i hbl hi hp hb
        have hcond' : i ∉ bs ∨ (st1.ctl i).type ≠ .pv := by
          rcases hcond with hcond | hcond
          · exact Or.inl fun hm => hcond (by simp [hm])
          · right; rw [k1]; exact hcond
        obtain ⟨j1, j2⟩ := i2 hcond'
        exact ⟨j1.trans k1, fun g hg => (j2 g hg).trans (k2 g hg)⟩
      · by_cases hbi : b = i
        · subst hbi
          obtain ⟨j1, j2⟩ := i2 (Or.inl hn.1)
          exact ⟨st, st1, hb, rfl, j1.symm, fun g hg => ⟨rfl, (j2 g hg).symm⟩⟩
        · have hmem' : i ∈ bs := by
            rcases List.mem_cons.mp hmem with h' | h'
            · exact absurd h'.symm hbi
            · exact h'
          obtain ⟨k1, k2⟩ := enforceBus_keeps tol inp hv dq st st1 b i hbl hi (Or.inl hbi) hb
          obtain ⟨a, a', q1, q2, q3, q4⟩ := i3 hmem'
          exact ⟨a, a', q1, q2.trans k1, q3, fun g hg => ⟨(q4 g hg).1.trans (k2 g hg), (q4 g hg).2⟩⟩

/-! ## One iteration -/

/-- One iteration, seen from one bus. -/
theorem iterate_bus {tol : K} {errTol : Dbl K} {cacheRun : Bool} {inp : Input s K} (hv : Valid inp) {it : Iter s K}
    {st st' : State s K} {d : Dbl K} (h : iterate tol errTol cacheRun inp it st = some (st', d)) (i : Nat)
    (hi : i < inp.buses.length) :
    ((st'.ctl i = st.ctl i ∧ ∀ g ∈ inp.buses[i].loadGens, st'.clamped g = st.clamped g) ∧
      ((st.countdown = 0 ∨ st.countdown = 1) → (st.ctl i).type = .pv → (st.ctl i).hasLimits = true →
        ∃ spec, specifiedRegulating inp inp.buses[i].loadGens = some spec ∧
          violatedLimit tol (spec - it.dq i) (st.ctl i).qMin (st.ctl i).qMax = .none)) ∨
    ((st.ctl i).type = .pv ∧ (st.ctl i).hasLimits = true ∧
      ∃ spec limit, specifiedRegulating inp inp.buses[i].loadGens = some spec ∧
        limit = violatedLimit tol (spec - it.dq i) (st.ctl i).qMin (st.ctl i).qMax ∧ limit ≠ .none ∧
        st'.ctl i = { st.ctl i with violated := limit, type := .pq } ∧
        (∀ g ∈ inp.buses[i].loadGens, (inp.gen g).on = false ∨ (inp.gen g).regs.filter (·.on) = [] →
          st'.clamped g = st.clamped g) ∧
        (∀ g ∈ inp.buses[i].loadGens, ∀ r, (inp.gen g).on = true → (inp.gen g).regs.filter (·.on) = [r] →
          st'.clamped g = clampValue tol limit (inp.gen g) r)) := by
  unfold iterate at h
  rw [Option.map_eq_some_iff] at h
  obtain ⟨a, ha, hit⟩ := h
  have hsame : st'.ctl = a.ctl ∧ st'.clamped = a.clamped := by
    unfold iterateUnknown at hit
    split_ifs at hit <;> (simp only [Prod.mk.injEq] at hit; rw [← hit.1]; exact ⟨rfl, rfl⟩)
  rw [hsame.1, hsame.2]
  unfold prepare at ha
  set st1 : State s K := if 0 < st.countdown then { st with countdown := st.countdown - 1 } else st with hst1
  have h1 : st1.ctl = st.ctl ∧ st1.clamped = st.clamped ∧
      (st.countdown = 0 ∨ st.countdown = 1 → st1.countdown = 0) := by
    rw [hst1]
    split_ifs with hc
    · exact ⟨rfl, rfl, fun h => by simp only; omega⟩
    · exact ⟨rfl, rfl, fun h => by omega⟩
  obtain ⟨e1, e2, e3⟩ := h1
  simp only at ha
  split_ifs at ha with hc
  · obtain ⟨_, _, l3⟩ := enforce_list tol inp hv it.dq i hi (List.range inp.buses.length) (fun b hb => List.mem_range.mp hb)
      List.nodup_range st1 a ha
    obtain ⟨x, x', q1, q2, q3, q4⟩ := l3 (List.mem_range.mpr hi)
    obtain ⟨_, sp⟩ := enforceBus_spec tol inp it.dq x x' i q1
    have hg : (((inp.buses[i]?).map (·.loadGens)).getD []) = inp.buses[i].loadGens := by
      rw [List.getElem?_eq_getElem hi]; rfl
    rw [hg, q2, e1] at sp
    rcases sp with ⟨rfl, sp⟩ | ⟨p1, p2, spec, limit, p3, p4, p5, p6, p7⟩
    · left
      refine ⟨⟨by rw [← q3, q2, e1], fun g hg => ?_⟩, fun _ => sp⟩
      rw [← (q4 g hg).2, (q4 g hg).1, e2]
    · right
      have hcl := clamp_spec tol inp limit inp.buses[i].loadGens (hv.nodup _ (List.getElem_mem hi)) x.clamped
      refine ⟨p1, p2, spec, limit, p3, p4, p5, ?_, fun g hg ho => ?_, fun g hg r ho hr => ?_⟩
      · rw [← q3, p7]; simp
      · rw [← (q4 g hg).2, p6, hcl.2.1 g hg ho, (q4 g hg).1, e2]
      · rw [← (q4 g hg).2, p6, hcl.2.2 g hg r ho hr]
  · injection ha with ha
    left
    refine ⟨⟨by rw [← ha, e1], fun g _ => by rw [← ha, e2]⟩, fun hcd => absurd (e3 hcd) hc⟩

/-! ## Properties -/

/-- A bus that is not voltage controlled is never made voltage controlled again: its control state and the reactive powers that
were fixed for its load/generators stay the same in all later iterations. -/
theorem never_switched_back {tol : K} {errTol : Dbl K} {cacheRun : Bool} {inp : Input s K} (hv : Valid inp)
    (its : List (Iter s K)) (st st' : State s K) (h : iterations tol errTol cacheRun inp its st = some st') (i : Nat)
    (hi : i < inp.buses.length) (hp : (st.ctl i).type ≠ .pv) :
    st'.ctl i = st.ctl i ∧ ∀ g ∈ inp.buses[i].loadGens, st'.clamped g = st.clamped g := by
  induction its generalizing st with
  | nil =>
    simp only [iterations, Option.some.injEq] at h
    subst h
    exact ⟨rfl, fun _ _ => rfl⟩
  | cons it its ih =>
    unfold iterations at h
    cases h1 : iterate tol errTol cacheRun inp it st with
    | none => rw [h1] at h; simp at h
    | some x =>
      obtain ⟨st1, d⟩ := x
      rw [h1] at h
      rcases iterate_bus hv h1 i hi with ⟨⟨k1, k2⟩, _⟩ | ⟨k1, _⟩
      · obtain ⟨j1, j2⟩ := ih st1 h (by rw [k1]; exact hp)
        exact ⟨j1.trans k1, fun g hg => (j2 g hg).trans (k2 g hg)⟩
      · exact absurd k1 hp

/-- The number of iterations in which bus `i` is switched from voltage controlled to something else. -/
def switches (tol : K) (errTol : Dbl K) (cacheRun : Bool) (inp : Input s K) (i : Nat) : List (Iter s K) → State s K → Nat
  | [], _ => 0
  | it :: its, st =>
    match iterate tol errTol cacheRun inp it st with
    | none => 0
    | some (st', _) =>
      (if (st.ctl i).type = .pv ∧ (st'.ctl i).type ≠ .pv then 1 else 0) + switches tol errTol cacheRun inp i its st'

/-- Every bus is switched at most once, and only if it is voltage controlled at the beginning, in any sequence of iterations. -/
theorem switches_at_most_once {tol : K} {errTol : Dbl K} {cacheRun : Bool} {inp : Input s K} (hv : Valid inp)
    (its : List (Iter s K)) (st : State s K) (i : Nat) (hi : i < inp.buses.length) :
    switches tol errTol cacheRun inp i its st ≤ if (st.ctl i).type = .pv then 1 else 0 := by
  induction its generalizing st with
  | nil => simp [switches]
  | cons it its ih =>
    unfold switches
    cases h1 : iterate tol errTol cacheRun inp it st with
    | none => simp
    | some x =>
      obtain ⟨st1, d⟩ := x
      simp only
      have := ih st1
      rcases iterate_bus hv h1 i hi with ⟨⟨k1, _⟩, _⟩ | ⟨k1, _, _, _, _, _, _, k4, _⟩
      · rw [k1] at this ⊢
        simp only [ne_eq, and_not_self, if_false, zero_add]
        exact this
      · rw [k4] at this ⊢
        simp only [k1, if_true, reduceCtorEq, if_false] at this ⊢
        simp only [ne_eq, reduceCtorEq, not_false_eq_true, and_self, if_true]
        omega

/-- The total number of switches is at most the number of voltage-controlled buses. -/
theorem total_switches_le {tol : K} {errTol : Dbl K} {cacheRun : Bool} {inp : Input s K} (hv : Valid inp)
    (its : List (Iter s K)) (st : State s K) :
    ((List.range inp.buses.length).map fun i => switches tol errTol cacheRun inp i its st).sum ≤
      ((List.range inp.buses.length).filter fun i => decide ((st.ctl i).type = .pv)).length := by
  have key : ∀ l : List Nat, (∀ i ∈ l, i < inp.buses.length) →
      (l.map fun i => switches tol errTol cacheRun inp i its st).sum ≤
        (l.filter fun i => decide ((st.ctl i).type = .pv)).length := by
    intro l
    induction l with
    | nil => simp
    | cons i l ih =>
      intro hl
      have h1 := ih (fun j hj => hl j (by simp [hj]))
      have h2 := switches_at_most_once (tol := tol) (errTol := errTol) (cacheRun := cacheRun) hv its st i (hl i (by simp))
      rw [List.map_cons, List.sum_cons, List.filter_cons]
      by_cases hp : (st.ctl i).type = .pv
      · simp only [hp, if_true, decide_true, List.length_cons] at h2 ⊢
        omega
      · simp only [hp, if_false, decide_false, Bool.false_eq_true] at h2 ⊢
        omega
  exact key _ (fun i hi => List.mem_range.mp hi)

/-- The specified reactive power that is taken off again is that of the regulating load/generators. -/
theorem specified_sum {inp : Input s K} (hv : Valid inp) (gs : List Nat) (spec : RV s K)
    (h : specifiedRegulating inp gs = some spec) :
    total spec = ((gs.filter fun g => (inp.gen g).on && (inp.gen g).regs.any (·.on)).map fun g => total (inp.gen g).q).sum := by
  induction gs generalizing spec with
  | nil =>
    simp only [specifiedRegulating, Option.some.injEq] at h
    subst h
    simp [total_zero]
  | cons g gs ih =>
    unfold specifiedRegulating at h
    cases hr : specifiedRegulating inp gs with
    | none => rw [hr] at h; simp at h
    | some rest =>
      rw [hr] at h
      have i1 := ih rest hr
      cases hreg : (inp.gen g).on && (inp.gen g).regs.any (·.on)
      · simp only [hreg, Bool.false_eq_true, if_false, Option.some.injEq] at h
        subst h
        simp only [List.filter_cons, hreg, Bool.false_eq_true, if_false]
        exact i1
      · simp only [hreg, if_true] at h
        split_ifs at h with hc
        simp only [Option.some.injEq] at h
        have hlen : ((inp.gen g).regs.filter (·.on)).length = 1 := by
          have h1 := hv.oneRegulator g
          have h2 : 0 < ((inp.gen g).regs.filter (·.on)).length := by
            rw [Bool.and_eq_true, List.any_eq_true] at hreg
            obtain ⟨_, r, hr1, hr2⟩ := hreg
            exact List.length_pos_of_mem (List.mem_filter.mpr ⟨hr1, hr2⟩)
          omega
        rw [hlen] at h
        simp only [Nat.cast_one, one_mul] at h
        have h' : spec = (inp.gen g).q + rest := h.symm
        simp only [List.filter_cons, hreg, if_true, List.map_cons, List.sum_cons]
        rw [h', total_add, i1]

/-- A bus is only switched when the reactive power it would have to deliver (what the grid takes, less what its other
load/generators deliver) exceeds its limit by more than the tolerance, and then the violated limit is recorded. -/
theorem switched_only_on_violation {tol : K} {errTol : Dbl K} {cacheRun : Bool} {inp : Input s K} (hv : Valid inp)
    {it : Iter s K} {st st' : State s K} {d : Dbl K} (h : iterate tol errTol cacheRun inp it st = some (st', d)) (i : Nat)
    (hi : i < inp.buses.length) (hp : (st.ctl i).type = .pv) (hp' : (st'.ctl i).type ≠ .pv) :
    ∃ required : K,
      required = ((inp.buses[i].loadGens.filter fun g => (inp.gen g).on && (inp.gen g).regs.any (·.on)).map
        fun g => total (inp.gen g).q).sum - total (it.dq i) ∧
      (((st'.ctl i).violated = .upper ∧ ∃ m, (st.ctl i).qMax = some m ∧ m + tol < required) ∨
       ((st'.ctl i).violated = .lower ∧ ∃ m, (st.ctl i).qMin = some m ∧ required < m - tol)) := by
  rcases iterate_bus hv h i hi with ⟨⟨k1, _⟩, _⟩ | ⟨_, _, spec, limit, p3, p4, p5, p6, _⟩
  · rw [k1] at hp'; exact absurd hp hp'
  · have hs := specified_sum hv _ _ p3
    refine ⟨_, rfl, ?_⟩
    rw [← hs, ← total_sub, p6]
    simp only
    obtain ⟨v1, v2, _⟩ := violatedLimit_iff tol (spec - it.dq i) (st.ctl i).qMin (st.ctl i).qMax
    cases hl : limit with
    | none => exact absurd hl p5
    | upper => exact Or.inl ⟨rfl, v1.mp (p4.symm.trans hl)⟩
    | lower => exact Or.inr ⟨rfl, v2 (p4.symm.trans hl)⟩

/-- What holds of a bus after any number of iterations. -/
def Fixed (tol : K) (inp : Input s K) (st : State s K) (i : Nat) (b : BusIn) : Prop :=
  (st.ctl i = (start inp).ctl i ∧ ∀ g ∈ b.loadGens, st.clamped g = none) ∨
  (((start inp).ctl i).type = .pv ∧ ∃ limit, limit ≠ .none ∧
    st.ctl i = { (start inp).ctl i with violated := limit, type := .pq } ∧
    (match limit with | .upper => ((start inp).ctl i).qMax ≠ none | .lower => ((start inp).ctl i).qMin ≠ none | .none => False) ∧
    (∀ g ∈ b.loadGens, (inp.gen g).on = false ∨ (inp.gen g).regs.filter (·.on) = [] → st.clamped g = none) ∧
    (∀ g ∈ b.loadGens, ∀ r, (inp.gen g).on = true → (inp.gen g).regs.filter (·.on) = [r] →
      st.clamped g = clampValue tol limit (inp.gen g) r))

theorem fixed_invariant {tol : K} {errTol : Dbl K} {cacheRun : Bool} {inp : Input s K} (hv : Valid inp)
    (its : List (Iter s K)) (st st' : State s K) (h : iterations tol errTol cacheRun inp its st = some st') (i : Nat)
    (hi : i < inp.buses.length) (hf : Fixed tol inp st i inp.buses[i]) : Fixed tol inp st' i inp.buses[i] := by
  induction its generalizing st with
  | nil =>
    simp only [iterations, Option.some.injEq] at h
    subst h
    exact hf
  | cons it its ih =>
    unfold iterations at h
    cases h1 : iterate tol errTol cacheRun inp it st with
    | none => rw [h1] at h; simp at h
    | some x =>
      obtain ⟨st1, d⟩ := x
      rw [h1] at h
      apply ih st1 h
      rcases iterate_bus hv h1 i hi with ⟨⟨k1, k2⟩, _⟩ | ⟨k1, _, spec, limit, p3, p4, p5, p6, p7, p8⟩
      · rcases hf with ⟨f1, f2⟩ | ⟨f1, limit, f2, f3, f4, f5, f6⟩
        · exact Or.inl ⟨k1.trans f1, fun g hg => (k2 g hg).trans (f2 g hg)⟩
        · exact Or.inr ⟨f1, limit, f2, k1.trans f3, f4, fun g hg ho => (k2 g hg).trans (f5 g hg ho),
            fun g hg r ho hr => (k2 g hg).trans (f6 g hg r ho hr)⟩
      · rcases hf with ⟨f1, f2⟩ | ⟨f1, limit', f2, f3, f4, f5, f6⟩
        · right
          rw [f1] at k1 p4 p6
          refine ⟨k1, limit, p5, p6, ?_, fun g hg ho => (p7 g hg ho).trans (f2 g hg), p8⟩
          obtain ⟨v1, v2, _⟩ := violatedLimit_iff tol (spec - it.dq i) ((start inp).ctl i).qMin ((start inp).ctl i).qMax
          rw [p4]
          cases hl : violatedLimit tol (spec - it.dq i) ((start inp).ctl i).qMin ((start inp).ctl i).qMax with
          | none => exact absurd (p4.trans hl) p5
          | upper =>
            obtain ⟨m, hm, _⟩ := v1.mp hl
            simp [hm]
          | lower =>
            obtain ⟨m, hm, _⟩ := v2 hl
            simp [hm]
        · rw [f3] at k1; simp at k1

/-- After any number of iterations of a power flow, every regulated bus is either still voltage controlled as in the beginning, no
violation is recorded and no reactive power is fixed; or it is switched, the violated limit is recorded, and for each of its
regulating load/generators the reactive power is fixed at exactly that limit of its regulator (which exists). Buses without
regulators are as in the beginning. -/
theorem switched_at_limit {tol : K} (ht : 0 ≤ tol) {errTol : Dbl K} {cacheRun : Bool} {inp : Input s K} (hv : Valid inp)
    (its : List (Iter s K)) (st : State s K) (h : iterations tol errTol cacheRun inp its (start inp) = some st) (i : Nat)
    (hi : i < inp.buses.length) :
    (st.ctl i = (start inp).ctl i ∧ (st.ctl i).violated = .none ∧ ∀ g ∈ inp.buses[i].loadGens, st.clamped g = none) ∨
    (((start inp).ctl i).type = .pv ∧ (st.ctl i).type = .pq ∧ (st.ctl i).violated ≠ .none ∧
      ∀ g ∈ inp.buses[i].loadGens,
        ((inp.gen g).on = false ∨ (∀ r ∈ (inp.gen g).regs, r.on = false) → st.clamped g = none) ∧
        (∀ r ∈ (inp.gen g).regs, (inp.gen g).on = true → r.on = true →
          ∃ m q, limitOf (st.ctl i).violated r.lim = some m ∧ st.clamped g = some q ∧ total q = m)) := by
  have hb : inp.buses[i]? = some inp.buses[i] := List.getElem?_eq_getElem hi
  obtain ⟨s1, s2, s3, s4⟩ := initial_control inp i _ hb
  have hf := fixed_invariant hv its _ st h i hi (Or.inl ⟨rfl, fun _ _ => rfl⟩)
  rcases hf with ⟨f1, f2⟩ | ⟨f1, limit, f2, f3, f4, f5, f6⟩
  · exact Or.inl ⟨f1, by rw [f1, s3], f2⟩
  · right
    refine ⟨f1, by rw [f3], by rw [f3]; exact f2, fun g hg => ⟨fun ho => ?_, fun r hr ho hro => ?_⟩⟩
    · apply f5 g hg
      rcases ho with ho | ho
      · exact Or.inl ho
      · right
        rw [List.filter_eq_nil_iff]
        intro r hr
        simp [ho r hr]
    · have hmem : r ∈ (inp.gen g).regs.filter (·.on) := List.mem_filter.mpr ⟨hr, hro⟩
      have hone : (inp.gen g).regs.filter (·.on) = [r] := by
        have h1 := hv.oneRegulator g
        cases hl : (inp.gen g).regs.filter (·.on) with
        | nil => rw [hl] at hmem; simp at hmem
        | cons x xs =>
          rw [hl] at hmem h1
          have : xs = [] := by
            cases xs with
            | nil => rfl
            | cons => simp at h1
          subst this
          rw [List.mem_singleton.mp hmem]
      have hreg : r ∈ regulatorsOf inp inp.buses[i] := by
        unfold regulatorsOf
        rw [List.mem_flatMap]
        exact ⟨g, hg, by rw [if_pos ho]; exact hmem⟩
      obtain ⟨sum1, sum2, _, _⟩ := s4 f1
      have hcl := f6 g hg r ho hone
      rw [f3]
      simp only
      cases limit with
      | none => exact absurd rfl f2
      | upper =>
        simp only [limitOf]
        cases hm : r.lim.qMax with
        | none => exact absurd (sum2.2 (List.mem_map.mpr ⟨r, hreg, hm⟩)) f4
        | some m => exact ⟨m, distribute tol m (inp.gen g).q, rfl, by rw [hcl]; simp [clampValue, hm], total_distribute ht _ _⟩
      | lower =>
        simp only [limitOf]
        cases hm : r.lim.qMin with
        | none => exact absurd (sum1.2 (List.mem_map.mpr ⟨r, hreg, hm⟩)) f4
        | some m => exact ⟨m, distribute tol m (inp.gen g).q, rfl, by rw [hcl]; simp [clampValue, hm], total_distribute ht _ _⟩

/-- The countdown never lets a check be skipped: after any number of iterations it is -1 (no limits at all), or 0, 1 or 2. -/
theorem countdown_range {tol : K} {errTol : Dbl K} {cacheRun : Bool} {inp : Input s K} (hv : Valid inp)
    (its : List (Iter s K)) (st : State s K) (h : iterations tol errTol cacheRun inp its (start inp) = some st) :
    (st.countdown = -1 ∧ ∀ b ∈ inp.buses, (busControl inp b).hasLimits = false) ∨ (0 ≤ st.countdown ∧ st.countdown ≤ 2) := by
  have key : ∀ (its : List (Iter s K)) (a st : State s K),
      ((a.countdown = -1 ∧ ∀ b ∈ inp.buses, (busControl inp b).hasLimits = false) ∨ (0 ≤ a.countdown ∧ a.countdown ≤ 2)) →
      iterations tol errTol cacheRun inp its a = some st →
      ((st.countdown = -1 ∧ ∀ b ∈ inp.buses, (busControl inp b).hasLimits = false) ∨
        (0 ≤ st.countdown ∧ st.countdown ≤ 2)) := by
    intro its
    induction its with
    | nil =>
      intro a st ha h
      simp only [iterations, Option.some.injEq] at h
      subst h; exact ha
    | cons it its ih =>
      intro a st ha h
      unfold iterations at h
      cases h1 : iterate tol errTol cacheRun inp it a with
      | none => rw [h1] at h; simp at h
      | some x =>
        obtain ⟨st1, d⟩ := x
        rw [h1] at h
        refine ih st1 st ?_ h
        unfold iterate at h1
        rw [Option.map_eq_some_iff] at h1
        obtain ⟨p, hp, hit⟩ := h1
        have hcp : p.countdown = if 0 < a.countdown then a.countdown - 1 else a.countdown := by
          unfold prepare at hp
          simp only at hp
          have hx : (if 0 < a.countdown then ({ a with countdown := a.countdown - 1 } : State s K) else a).countdown =
              if 0 < a.countdown then a.countdown - 1 else a.countdown := by split_ifs <;> rfl
          split_ifs at hp with g1 g2
          · rw [if_pos g1] at hx ⊢
            rcases Nat.eq_zero_or_pos inp.buses.length with hz | hpos
            · unfold enforce at hp
              rw [hz] at hp
              simp only [List.range_zero, List.foldlM_nil] at hp
              injection hp with hp
              rw [← hp]
            · have := (enforce_list tol inp hv it.dq 0 hpos (List.range inp.buses.length) (fun b hb => List.mem_range.mp hb)
                List.nodup_range _ p hp).1
              rw [this]
          · injection hp with hp
            rw [← hp, if_pos g1]
          · rw [if_neg g1]
            rcases Nat.eq_zero_or_pos inp.buses.length with hz | hpos
            · unfold enforce at hp
              rw [hz] at hp
              simp only [List.range_zero, List.foldlM_nil] at hp
              injection hp with hp
              rw [← hp]
            · have := (enforce_list tol inp hv it.dq 0 hpos (List.range inp.buses.length) (fun b hb => List.mem_range.mp hb)
                List.nodup_range _ p hp).1
              rw [this]
          · injection hp with hp
            rw [← hp, if_neg g1]
        have hst : st1.countdown = p.countdown ∨ (st1.countdown = 0 ∧ 0 < p.countdown) := by
          unfold iterateUnknown at hit
          split_ifs at hit with hcond
          · simp only [Prod.mk.injEq] at hit
            right
            rw [← hit.1]
            simp only [Bool.and_eq_true, decide_eq_true_eq] at hcond
            exact ⟨rfl, hcond.1.2⟩
          · simp only [Prod.mk.injEq] at hit
            left; rw [hit.1]
        rcases ha with ⟨ha, hl⟩ | ha
        · left
          rw [ha] at hcp
          simp only [Int.reduceNeg, Left.nonneg_neg_iff, Int.reduceLT, if_false] at hcp
          rcases hst with hst | ⟨_, hst⟩
          · exact ⟨hst.trans hcp, hl⟩
          · omega
        · right
          split_ifs at hcp <;> omega
  apply key its (start inp) st _ h
  unfold start
  simp only
  split_ifs with hl
  · right; omega
  · left
    refine ⟨rfl, fun b hb => ?_⟩
    simp only [List.any_eq_true, not_exists, not_and] at hl
    simpa using hl b hb

/-- A calculation (other than the preparatory run that only fills caches) cannot converge without a check: if the last iteration
counts as converged (and its deviation is not NaN), then for every bus that is still voltage controlled and has limits, the
required reactive power in the last iteration was within the limits. -/
theorem converged_within_limits {tol e : K} {inp : Input s K} (hv : Valid inp)
    (its : List (Iter s K)) (st : State s K) (h : iterations tol (.fin e) false inp its (start inp) = some st)
    (it : Iter s K) (st' : State s K) (d : Dbl K) (h1 : iterate tol (.fin e) false inp it st = some (st', d))
    (hnan : it.dev ≠ .nan) (hconv : Dbl.lt (.fin e) d = false) (i : Nat) (hi : i < inp.buses.length)
    (hp : (st'.ctl i).type = .pv) (hl : (st'.ctl i).hasLimits = true) :
    ∃ required : K,
      required = ((inp.buses[i].loadGens.filter fun g => (inp.gen g).on && (inp.gen g).regs.any (·.on)).map
        fun g => total (inp.gen g).q).sum - total (it.dq i) ∧
      (∀ m, (st'.ctl i).qMax = some m → required ≤ m + tol) ∧ (∀ m, (st'.ctl i).qMin = some m → m - tol ≤ required) := by
  have hcount : st.countdown = 0 ∨ st.countdown = 1 := by
    rcases countdown_range hv its st h with ⟨hc, hnone⟩ | hc
    · exfalso
      -- no bus has limits, contradicting `hl`
      have hb : inp.buses[i]? = some inp.buses[i] := List.getElem?_eq_getElem hi
      have h0 : ((start inp).ctl i).hasLimits = false := by
        simp only [start, hb]
        exact hnone _ (List.getElem_mem hi)
      have happ : ∀ (its : List (Iter s K)) (a : State s K), iterations tol (.fin e) false inp its a = some st →
          iterations tol (.fin e) false inp (its ++ [it]) a = some st' := by
        intro its
        induction its with
        | nil =>
          intro a ha
          simp only [iterations, Option.some.injEq] at ha
          subst ha
          simp [iterations, h1]
        | cons x xs ih =>
          intro a ha
          unfold iterations at ha
          rw [List.cons_append]
          unfold iterations
          cases hx : iterate tol (.fin e) false inp x a with
          | none => rw [hx] at ha; simp at ha
          | some y => rw [hx] at ha; exact ih y.1 ha
      have hf := fixed_invariant hv _ _ st' (happ its _ h) i hi (Or.inl ⟨rfl, fun _ _ => rfl⟩)
      rcases hf with ⟨f1, _⟩ | ⟨_, limit, _, f3, _⟩
      · rw [f1, h0] at hl; simp at hl
      · rw [f3] at hl; simp only [h0] at hl; simp at hl
    · by_contra hcc
      have hc2 : st.countdown = 2 := by omega
      -- countdown 1 after the preparation; convergence would be refused
      unfold iterate at h1
      rw [Option.map_eq_some_iff] at h1
      obtain ⟨p, hpp, hit⟩ := h1
      have hcp : p.countdown = 1 := by
        unfold prepare at hpp
        rw [hc2] at hpp
        simp only [Int.reduceLT, if_true, Int.reduceSub, Int.reduceEq, if_false, one_ne_zero, Nat.ofNat_pos] at hpp
        simp at hpp
        rw [← hpp]
      have hd : d = it.dev ∨ d = .inf := by
        unfold iterateUnknown at hit
        split_ifs at hit <;> (simp only [Prod.mk.injEq] at hit; simp [hit.2])
      cases hdev : it.dev with
      | nan => exact hnan hdev
      | inf => rcases hd with hd | hd <;> simp [hd, hdev, Dbl.lt] at hconv
      | fin a =>
        by_cases hle : a ≤ e
        · unfold iterateUnknown at hit
          simp only [hdev, hle, decide_true, hcp, Int.zero_lt_one, Bool.not_false, Bool.and_self, if_true,
            Prod.mk.injEq] at hit
          simp [← hit.2, Dbl.lt] at hconv
        · rcases hd with hd | hd
          · rw [hd, hdev] at hconv
            simp only [Dbl.lt, decide_eq_false_iff_not] at hconv
            exact hle (not_lt.mp hconv)
          · simp [hd, Dbl.lt] at hconv
  rcases iterate_bus hv h1 i hi with ⟨⟨k1, _⟩, k2⟩ | ⟨_, _, _, _, _, _, _, k4, _⟩
  · rw [k1] at hp hl ⊢
    obtain ⟨spec, s1, s2⟩ := k2 hcount hp hl
    refine ⟨_, rfl, ?_⟩
    rw [← specified_sum hv _ _ s1, ← total_sub]
    exact (violatedLimit_iff tol _ _ _).2.2.mp s2
  · rw [k4] at hp; simp at hp

/-! ## Non-vacuity -/

/-- Two buses. At bus 1 a generator (0) with a regulator with limits [-1, 2] and a load (1) without regulator. -/
def demo : Input .sym ℚ :=
  { buses := [{ hasSource := true, loadGens := [] }, { hasSource := false, loadGens := [0, 1] }]
    gen := fun g => if g = 0 then { on := true, constPq := true, q := fun _ => 1, regs := [{ on := true, uRef := 1, lim := ⟨some (-1), some 2⟩ }] }
      else { on := true, constPq := true, q := fun _ => -1, regs := [] } }

example : Valid demo where
  oneRegulator := fun g => by
    unfold demo
    simp only
    split_ifs <;> decide
  nodup := by decide
  disjoint := by
    intro i j hi hj hij g hg
    have h1 : i = 0 ∨ i = 1 := by have : i < 2 := hi; omega
    have h2 : j = 0 ∨ j = 1 := by have : j < 2 := hj; omega
    rcases h1 with rfl | rfl <;> rcases h2 with rfl | rfl <;> simp_all [demo]

/-- Two iterations. In the second one the grid needs 5 from the generator (mismatch -4): the bus is switched and the generator is
fixed at 2. -/
example : (iterations (1 / 1000) (.fin (1 / 100)) false demo
      [⟨fun _ => 0, .fin 1⟩, ⟨fun b => if b = 1 then fun _ => -4 else 0, .fin 1⟩] (start demo)).map
    (fun st => ((st.ctl 1).type, (st.ctl 1).violated, (st.clamped 0).map total, (st.clamped 1).map total, (st.ctl 0).type)) =
    some (.pq, .upper, some 2, none, .slack) := by decide +kernel

/-- An iteration that converges with a voltage-controlled bus within its limits. -/
example : ((iterations (1 / 1000) (.fin (1 / 100)) false demo [⟨fun _ => 0, .fin 1⟩] (start demo)).bind fun st =>
    (iterate (1 / 1000) (.fin (1 / 100)) false demo ⟨fun _ => 0, .fin 0⟩ st).map fun x =>
      (x.2, (x.1.ctl 1).type, (x.1.ctl 1).hasLimits)) = some (.fin 0, .pv, true) := by decide +kernel

end PGM.PowerFlow.Newton
