import Verif.PowerFlow.Regulator

/-!
# Reactive power of voltage-regulated generators: properties (C21)
-/

namespace PGM.PowerFlow

variable {K : Type} [Field K] [LinearOrder K] [IsStrictOrderedRing K] {s : Symm}

/-! ## Invariants -/

/-- An exhausted regulator is exactly at one of its limits. -/
def AtLimit (r : Reg s K) : Prop := r.lim.qMax = some (total r.alloc) ∨ r.lim.qMin = some (total r.alloc)

/-- State of a regulator after a pass. -/
def Visited (tol : K) (r : Reg s K) : Prop :=
  (r.available = true → r.lim.Within tol (total r.alloc)) ∧ (r.available = false → AtLimit r)

theorem visit_visited {tol : K} (ht : 0 ≤ tol) (share : RV s K) (r : Reg s K)
    (h : r.available = false → AtLimit r) : Visited tol (visit tol share r).1 := by
  unfold visit
  cases ha : r.available
  · simp only [Bool.not_false, if_true]
    exact ⟨fun h' => by rw [ha] at h'; simp at h', fun _ => h ha⟩
  · simp only [Bool.not_true, Bool.false_eq_true, if_false]
    split
    · rename_i m hm
      refine ⟨by simp, fun _ => Or.inl ?_⟩
      simp only [total_distribute ht]
      exact (Option.filter_eq_some_iff.mp hm).1
    · rename_i hmax
      split
      · rename_i m hm
        refine ⟨by simp, fun _ => Or.inr ?_⟩
        simp only [total_distribute ht]
        exact (Option.filter_eq_some_iff.mp hm).1
      · rename_i hmin
        refine ⟨fun _ => ⟨fun m hm => ?_, fun m hm => ?_⟩, fun h' => by simp only [ha] at h'; simp at h'⟩
        · simp only at hm ⊢
          simp only [overMax, hm, Option.filter_eq_none_iff] at hmax
          simpa using hmax
        · simp only at hm ⊢
          simp only [underMin, hm, Option.filter_eq_none_iff] at hmin
          simpa using hmin

theorem round_visited {tol : K} (ht : 0 ≤ tol) (share : RV s K) (rs : List (Reg s K))
    (h : ∀ r ∈ rs, r.available = false → AtLimit r) : ∀ r ∈ (round tol share rs).1, Visited tol r := by
  induction rs with
  | nil => simp [round]
  | cons r rs ih =>
    intro x hx
    simp only [round, List.mem_cons] at hx
    rcases hx with rfl | hx
    · exact visit_visited ht share r (h r (by simp))
    · exact ih (fun r hr => h r (by simp [hr])) x hx

theorem loop_visited {tol : K} (ht : 0 ≤ tol) (fuel : Nat) (num : Int) (q : RV s K) (rs rs' : List (Reg s K))
    (hr : ∀ r ∈ rs, r.available = false → AtLimit r) (h : distributeLoop tol fuel num q rs = .ok rs') :
    (∀ r ∈ rs', r.available = false → AtLimit r) ∧
      ((∀ r ∈ rs, Visited tol r) ∨ (tol < |total q| ∧ 0 < num) → ∀ r ∈ rs', Visited tol r) := by
  induction fuel generalizing num q rs with
  | zero => simp [distributeLoop] at h
  | succ fuel ih =>
    rw [loop_succ] at h
    split_ifs at h with h1 h2
    · have hv := round_visited ht (fun p => q p / (num : K)) rs hr
      have := ih _ _ _ (fun r hr => (hv r hr).2) h
      exact ⟨this.1, fun _ => this.2 (Or.inl hv)⟩
    · injection h with h
      subst h
      refine ⟨hr, fun h' => ?_⟩
      rcases h' with h' | h'
      · exact h'
      · exact absurd h' h1

/-! ### Signed invariant, for generators that may deliver zero -/

/-- The value counted in the direction of the requirement. -/
def sg (up : Bool) (x : K) : K := if up then x else -x

/-- The limit in the direction of the requirement. -/
def capOf (up : Bool) (l : Limits K) : Option K := if up then l.qMax else l.qMin.map fun m => -m

/-- Invariant of a regulator: it delivers in the direction of the requirement, and if exhausted it is at its limit in that
direction. -/
def Signed (up : Bool) (r : Reg s K) : Prop :=
  0 ≤ sg up (total r.alloc) ∧ (r.available = false → capOf up r.lim = some (sg up (total r.alloc)))

theorem visit_signed {tol : K} (ht : 0 ≤ tol) (up : Bool) (share : RV s K) (r : Reg s K)
    (hz : r.lim.ContainsZero) (hs : 0 ≤ sg up (total share)) (h : Signed up r) :
    Signed up (visit tol share r).1 ∧ 0 ≤ sg up (total (visit tol share r).2.1) := by
  unfold visit
  cases ha : r.available
  · simp only [Bool.not_false, if_true]
    exact ⟨h, by simp [sg, total_zero]⟩
  · simp only [Bool.not_true, Bool.false_eq_true, if_false]
    have hn : 0 ≤ sg up (total (r.alloc + share)) := by
      rw [total_add]
      have := h.1
      cases up <;> simp only [sg, if_true, Bool.false_eq_true, if_false] at hs this ⊢ <;> linarith
    split
    · rename_i m hm
      obtain ⟨hm1, hm2⟩ := Option.filter_eq_some_iff.mp hm
      have hm2 : m + tol < total (r.alloc + share) := by simpa using hm2
      have hm0 := hz.1 m hm1
      simp only [Signed, total_sub, total_distribute ht]
      cases up
      · exfalso
        simp only [sg, Bool.false_eq_true, if_false] at hn
        linarith
      · simp only [sg, capOf, if_true] at hn ⊢
        rw [total_add] at hm2
        exact ⟨⟨by linarith, fun _ => hm1⟩, by linarith⟩
    · split
      · rename_i m hm
        obtain ⟨hm1, hm2⟩ := Option.filter_eq_some_iff.mp hm
        have hm2 : total (r.alloc + share) < m - tol := by simpa using hm2
        have hm0 := hz.2 m hm1
        simp only [Signed, total_sub, total_distribute ht]
        cases up
        · simp only [sg, capOf, Bool.false_eq_true, if_false] at hn ⊢
          rw [total_add] at hm2
          exact ⟨⟨by linarith, fun _ => by rw [hm1]; rfl⟩, by linarith⟩
        · exfalso
          simp only [sg, if_true] at hn
          linarith
      · exact ⟨⟨hn, fun h' => by simp only [ha] at h'; simp at h'⟩, by simp [sg, total_zero]⟩

theorem round_signed {tol : K} (ht : 0 ≤ tol) (up : Bool) (share : RV s K) (rs : List (Reg s K))
    (hz : ∀ r ∈ rs, r.lim.ContainsZero) (hs : 0 ≤ sg up (total share)) (h : ∀ r ∈ rs, Signed up r) :
    (∀ r ∈ (round tol share rs).1, Signed up r) ∧ 0 ≤ sg up (total (round tol share rs).2.1) := by
  induction rs with
  | nil => simp [round, sg, total_zero]
  | cons r rs ih =>
    obtain ⟨i1, i2⟩ := ih (fun r hr => hz r (by simp [hr])) (fun r hr => h r (by simp [hr]))
    obtain ⟨v1, v2⟩ := visit_signed ht up share r (hz r (by simp)) hs (h r (by simp))
    simp only [round, List.mem_cons, total_add]
    refine ⟨?_, ?_⟩
    · rintro x (rfl | hx)
      · exact v1
      · exact i1 x hx
    · cases up <;> simp only [sg, if_true, Bool.false_eq_true, if_false] at i2 v2 ⊢ <;> linarith

theorem mem_lim {rs rs' : List (Reg s K)} (h : rs'.map (·.lim) = rs.map (·.lim)) {P : Limits K → Prop}
    (hp : ∀ r ∈ rs, P r.lim) : ∀ r ∈ rs', P r.lim := by
  intro r hr
  have : r.lim ∈ rs'.map (·.lim) := List.mem_map.mpr ⟨r, hr, rfl⟩
  rw [h, List.mem_map] at this
  obtain ⟨x, hx, he⟩ := this
  exact he ▸ hp x hx

theorem loop_signed {tol : K} (ht : 0 ≤ tol) (up : Bool) (fuel : Nat) (num : Int) (q : RV s K)
    (rs rs' : List (Reg s K)) (hn : num = navail rs)
    (hz : ∀ r ∈ rs, r.lim.ContainsZero) (hs : 0 ≤ sg up (total q)) (hr : ∀ r ∈ rs, Signed up r)
    (h : distributeLoop tol fuel num q rs = .ok rs') :
    (∀ r ∈ rs', Signed up r) ∧
    ∃ rem : RV s K, allocSum rs' + rem = allocSum rs + q ∧ (|total rem| ≤ tol ∨ navail rs' = 0) ∧
      0 ≤ sg up (total rem) := by
  induction fuel generalizing num q rs with
  | zero => simp [distributeLoop] at h
  | succ fuel ih =>
    rw [loop_succ] at h
    split_ifs at h with h1 h2
    · obtain ⟨k1, k2, k3, k4⟩ := round_spec tol (fun p => q p / (num : K)) rs
      have hnum : (0 : K) < (num : K) := by exact_mod_cast h1.2
      have hs' : 0 ≤ sg up (total (fun p => q p / (num : K) : RV s K)) := by
        rw [total_div]
        cases up <;> simp only [sg, if_true, Bool.false_eq_true, if_false] at hs ⊢
        · rw [← neg_div]; exact div_nonneg hs hnum.le
        · exact div_nonneg hs hnum.le
      obtain ⟨r1, r2⟩ := round_signed ht up (fun p => q p / (num : K)) rs hz hs' hr
      obtain ⟨e0, rem, e1, e2, e3⟩ := ih _ _ _ (by omega) (mem_lim k3 hz) r2 r1 h
      refine ⟨e0, rem, ?_, e2, e3⟩
      rw [e1, k1]
      funext p
      simp only [Pi.add_apply, ← hn]
      field_simp
    · injection h with h
      subst h
      refine ⟨hr, q, rfl, ?_, hs⟩
      by_contra hc
      push Not at hc
      have := navail_nonneg rs
      exact h1 ⟨hc.1, by omega⟩

theorem navail_zero {rs : List (Reg s K)} (h : navail rs = 0) : ∀ r ∈ rs, r.available = false := by
  induction rs with
  | nil => simp
  | cons r rs ih =>
    have := navail_nonneg rs
    simp only [navail, List.map_cons, List.sum_cons] at h this ih
    intro x hx
    cases ha : r.available
    · rw [ha] at h
      simp only [Bool.false_eq_true, if_false] at h
      rcases List.mem_cons.mp hx with rfl | hx
      · exact ha
      · exact ih (by omega) x hx
    · rw [ha] at h
      simp only [if_true] at h
      omega

theorem total_allocSum (rs : List (Reg s K)) : total (allocSum rs) = (rs.map fun r => total r.alloc).sum := by
  induction rs with
  | nil => simp [allocSum, total_zero]
  | cons r rs ih =>
    simp only [allocSum, List.map_cons, List.sum_cons] at ih ⊢
    rw [total_add, ih]

/-- No values within the limits exceed the sum of exhausted regulators. -/
theorem feasible_le (up : Bool) (rs : List (Reg s K)) (hr : ∀ r ∈ rs, capOf up r.lim = some (sg up (total r.alloc)))
    (xs : List K) (hl : xs.length = rs.length) (hw : ∀ x ∈ (rs.map (·.lim)).zip xs, x.1.Within 0 x.2) :
    sg up xs.sum ≤ sg up (rs.map fun r => total r.alloc).sum := by
  induction rs generalizing xs with
  | nil =>
    cases xs with
    | nil => simp
    | cons x xs => simp at hl
  | cons r rs ih =>
    cases xs with
    | nil => simp at hl
    | cons x xs =>
      have i := ih (fun r hr' => hr r (by simp [hr'])) xs (by simpa using hl)
        (fun y hy => hw y (by simp [hy]))
      have c := hr r (by simp)
      have w : r.lim.Within 0 x := hw (r.lim, x) (by simp)
      simp only [List.map_cons, List.sum_cons]
      cases up
      · simp only [sg, capOf, Bool.false_eq_true, if_false, Option.map_eq_some_iff] at c i ⊢
        obtain ⟨m, hm, he⟩ := c
        have := w.2 m hm
        linarith
      · simp only [sg, capOf, if_true] at c i ⊢
        have := w.1 _ c
        linarith

/-- The state in which `allocateIterative` starts. -/
theorem start_facts (rs : List (Reg s K)) :
    navail (rs.map fun r => { r with available := true }) = rs.length ∧
    (∀ r ∈ (rs.map fun r => { r with available := true }), r.available = true) ∧
    (rs.map fun r => { r with available := true }).map (·.lim) = rs.map (·.lim) ∧
    (rs.map fun r => { r with available := true }).map (·.loadGen) = rs.map (·.loadGen) ∧
    allocSum (rs.map fun r => { r with available := true }) = allocSum rs := by
  refine ⟨?_, ?_, by simp, by simp, by simp [allocSum, Function.comp_def]⟩
  · simp [navail, Function.comp_def]
  · intro r hr
    rw [List.mem_map] at hr
    obtain ⟨x, _, rfl⟩ := hr
    rfl

theorem allocSum_zero {rs : List (Reg s K)} (h : ∀ r ∈ rs, r.alloc = 0) : allocSum rs = 0 := by
  induction rs with
  | nil => rfl
  | cons r rs ih =>
    simp only [allocSum, List.map_cons, List.sum_cons] at ih ⊢
    rw [h r (by simp), ih (fun r hr => h r (by simp [hr])), add_zero]

/-! ## Properties of the distribution -/

/-- The distribution always comes to an end, whatever the limits. -/
theorem allocate_terminates {tol : K} (ht : 0 < tol) (q : RV s K) (rs : List (Reg s K)) :
    allocateIterative tol rs.length q rs ≠ .running := by
  apply loop_terminates ht
  · exact (start_facts rs).1.symm
  · push_cast; omega

/-- More passes than the number of regulators plus one are never made. -/
theorem loop_fuel_irrelevant (tol : K) (fuel : Nat) (num : Int) (q : RV s K) (rs : List (Reg s K))
    (h : distributeLoop tol fuel num q rs ≠ .running) (more : Nat) :
    distributeLoop tol (fuel + more) num q rs = distributeLoop tol fuel num q rs := by
  induction fuel generalizing num q rs with
  | zero => simp [distributeLoop] at h
  | succ fuel ih =>
    rw [Nat.add_right_comm, loop_succ, loop_succ]
    rw [loop_succ] at h
    split_ifs with h1 h2
    · rfl
    · rw [if_pos h1, if_neg h2] at h
      exact ih _ _ _ h
    · rfl

/-- For any limits: when the distribution succeeds, the allocated reactive powers add up to the requirement, or every single
generator is exactly at one of its limits; if there was anything to distribute, every generator respects its limits. What is
missing to the full property is that in the second case the requirement may be missed although it can be met
(`feasible_requirement_missed`). -/
theorem allocate_any_limits_partial {tol : K} (ht : 0 < tol) (q : RV s K) (rs rs' : List (Reg s K)) (h0 : ∀ r ∈ rs, r.alloc = 0)
    (hl : ∀ r ∈ rs, ∀ lo hi, r.lim.qMin = some lo → r.lim.qMax = some hi → lo ≤ hi)
    (h : allocateIterative tol rs.length q rs = .ok rs') :
    (|(rs'.map fun r => total r.alloc).sum - total q| ≤ tol ∨
      ∀ r ∈ rs', r.lim.qMax = some (total r.alloc) ∨ r.lim.qMin = some (total r.alloc)) ∧
    (tol < |total q| → ∀ r ∈ rs', r.lim.Within tol (total r.alloc)) ∧
    rs'.map (·.lim) = rs.map (·.lim) ∧ rs'.map (·.loadGen) = rs.map (·.loadGen) := by
  obtain ⟨s1, s2, s3, s4, s5⟩ := start_facts rs
  obtain ⟨rem, e1, e2, e3, e4⟩ := loop_conserves _ _ _ _ _ s1.symm h
  obtain ⟨l1, l2⟩ := loop_visited ht.le _ _ _ _ _ (fun r hr hf => by rw [s2 r hr] at hf; simp at hf) h
  refine ⟨?_, fun hq => ?_, e3.trans s3, e4.trans s4⟩
  · rcases e2 with e2 | e2
    · left
      rw [s5, allocSum_zero h0, zero_add] at e1
      have e1' := congrArg total e1
      rw [total_add, total_allocSum] at e1'
      rw [← e1', show ∀ a b : K, a - (a + b) = -b by intros; ring, abs_neg]
      exact e2
    · right
      intro r hr
      exact l1 r hr (navail_zero e2 r hr)
  · rcases Nat.eq_zero_or_pos rs.length with hz | hp
    · have : rs' = [] := by
        have := congrArg List.length (e3.trans s3)
        simp only [List.length_map] at this
        exact List.length_eq_zero_iff.mp (this.trans hz)
      simp [this]
    · have hv := l2 (Or.inr ⟨hq, by exact_mod_cast hp⟩)
      have hl' : ∀ r ∈ rs', ∀ lo hi, r.lim.qMin = some lo → r.lim.qMax = some hi → lo ≤ hi :=
        mem_lim (P := fun l => ∀ lo hi, l.qMin = some lo → l.qMax = some hi → lo ≤ hi) (e3.trans s3) hl
      intro r hr
      cases ha : r.available
      · rcases (hv r hr).2 ha with hm | hm
        · refine ⟨fun m he => ?_, fun m he => ?_⟩
          · rw [hm] at he; injection he with he; linarith
          · have := hl' r hr m _ he hm; linarith
        · refine ⟨fun m he => ?_, fun m he => ?_⟩
          · have := hl' r hr _ m hm he; linarith
          · rw [hm] at he; injection he with he; linarith
      · exact (hv r hr).1 ha

/-- Generators that may deliver zero reactive power: if the requirement can be met, then the distribution meets it (up to the
tolerance) and every generator respects its limits. Missing: limits that exclude zero, for which this is false
(`feasible_requirement_missed`), and the absence of an error, which is false too (`spurious_error`). -/
theorem allocate_correct_partial {tol : K} (ht : 0 < tol) (q : RV s K) (rs rs' : List (Reg s K))
    (h0 : ∀ r ∈ rs, r.alloc = 0) (hz : ∀ r ∈ rs, r.lim.ContainsZero)
    (hf : Feasible (rs.map (·.lim)) (total q)) (h : allocateIterative tol rs.length q rs = .ok rs') :
    (∀ r ∈ rs', r.lim.Within tol (total r.alloc)) ∧
    |(rs'.map fun r => total r.alloc).sum - total q| ≤ tol ∧
    rs'.map (·.lim) = rs.map (·.lim) ∧ rs'.map (·.loadGen) = rs.map (·.loadGen) := by
  obtain ⟨s1, s2, s3, s4, s5⟩ := start_facts rs
  have hord : ∀ r ∈ rs, ∀ lo hi, r.lim.qMin = some lo → r.lim.qMax = some hi → lo ≤ hi := by
    intro r hr lo hi hlo hhi
    have h1 := (hz r hr).1 hi hhi
    have h2 := (hz r hr).2 lo hlo
    linarith
  obtain ⟨_, g2, g3, g4⟩ := allocate_any_limits_partial ht q rs rs' h0 hord h
  have hstart : ∀ r ∈ (rs.map fun r => { r with available := true }), r.alloc = 0 := by
    intro r hr
    rw [List.mem_map] at hr
    obtain ⟨x, hx, rfl⟩ := hr
    exact h0 x hx
  have key : ∀ up : Bool, 0 ≤ sg up (total q) →
      |(rs'.map fun r => total r.alloc).sum - total q| ≤ tol := by
    intro up hup
    obtain ⟨r1, rem, e1, e2, e3⟩ := loop_signed ht.le up _ _ _ _ _ s1.symm (mem_lim s3 hz) hup
      (fun r hr => ⟨by rw [hstart r hr, total_zero]; simp [sg], fun hf => by rw [s2 r hr] at hf; simp at hf⟩) h
    rw [s5, allocSum_zero h0, zero_add] at e1
    have e1' := congrArg total e1
    rw [total_add, total_allocSum] at e1'
    rw [← e1', show ∀ a b : K, a - (a + b) = -b by intros; ring, abs_neg]
    rcases e2 with e2 | e2
    · exact e2
    · obtain ⟨xs, f1, f2, f3⟩ := hf
      have := feasible_le up rs' (fun r hr => (r1 r hr).2 (navail_zero e2 r hr)) xs
        (by rw [f1, ← g3]; simp) (by rw [g3]; exact f2)
      rw [f3, ← e1'] at this
      have hrem : total rem = 0 := by
        cases up <;> simp only [sg, if_true, Bool.false_eq_true, if_false] at this e3 <;> linarith
      rw [hrem, abs_zero]
      exact ht.le
  have hsum : |(rs'.map fun r => total r.alloc).sum - total q| ≤ tol := by
    rcases le_total 0 (total q) with hq | hq
    · exact key true (by simpa [sg] using hq)
    · exact key false (by simpa [sg] using hq)
  refine ⟨?_, hsum, g3, g4⟩
  by_cases hq : tol < |total q|
  · exact g2 hq
  · -- nothing to distribute: everybody stays at zero
    have : rs' = rs.map fun r => { r with available := true } := by
      unfold allocateIterative at h
      rw [loop_succ, if_neg (fun hh => hq hh.1)] at h
      injection h with h
      exact h.symm
    subst this
    intro r hr
    rw [hstart r hr, total_zero]
    have hz' := mem_lim s3 hz r hr
    refine ⟨fun m hm => ?_, fun m hm => ?_⟩
    · have := hz'.1 m hm; linarith
    · have := hz'.2 m hm; linarith

/-- If the equal share is within the limits of every generator, every generator gets exactly its equal share. -/
theorem allocate_equal_share {tol : K} (ht : 0 < tol) (q : RV s K) (rs : List (Reg s K)) (h0 : ∀ r ∈ rs, r.alloc = 0)
    (hne : rs ≠ []) (hq : tol < |total q|) (hw : ∀ r ∈ rs, r.lim.Within tol (total q / rs.length)) :
    ∃ rs', allocateIterative tol rs.length q rs = .ok rs' ∧ rs'.map (·.loadGen) = rs.map (·.loadGen) ∧
      ∀ r ∈ rs', r.alloc = fun p => q p / rs.length := by
  have hpos : (0 : Int) < rs.length := by exact_mod_cast List.length_pos_iff.mpr hne
  have hround : ∀ (sh : RV s K) (l : List (Reg s K)), (∀ r ∈ l, r.available = true ∧ r.alloc = 0 ∧
      r.lim.Within tol (total sh)) → round tol sh l = (l.map fun r => { r with alloc := sh }, 0, 0) := by
    intro sh l
    induction l with
    | nil => intro _; rfl
    | cons r l ih =>
      intro hl
      obtain ⟨a1, a2, a3⟩ := hl r (by simp)
      have hv : visit tol sh r = ({ r with alloc := sh }, 0, 0) := by
        unfold visit
        simp only [a1, Bool.not_true, Bool.false_eq_true, if_false, a2, zero_add]
        have o1 : overMax tol r.lim (total sh) = none := by
          unfold overMax
          rw [Option.filter_eq_none_iff]
          intro m hm
          simpa using a3.1 m hm
        have o2 : underMin tol r.lim (total sh) = none := by
          unfold underMin
          rw [Option.filter_eq_none_iff]
          intro m hm
          simpa using a3.2 m hm
        rw [o1, o2]
      simp only [round, hv, ih (fun r hr => hl r (by simp [hr])), List.map_cons, add_zero]
  have hr := hround (fun p => q p / ((rs.length : Int) : K)) (rs.map fun r => { r with available := true }) (by
    intro r hr
    rw [List.mem_map] at hr
    obtain ⟨x, hx, rfl⟩ := hr
    refine ⟨rfl, h0 x hx, ?_⟩
    rw [total_div]
    simpa using hw x hx)
  refine ⟨(rs.map fun r => { r with available := true }).map
      fun r => { r with alloc := fun p => q p / ((rs.length : Int) : K) }, ?_, ?_, ?_⟩
  · unfold allocateIterative
    rw [loop_succ, if_pos ⟨hq, hpos⟩, hr]
    simp only
    rw [if_neg (by rw [sub_zero]; exact not_lt.mpr hq.le)]
    obtain ⟨n, hn⟩ : ∃ n, rs.length = n + 1 := ⟨rs.length - 1, by omega⟩
    have : ∀ (k : Int) (l : List (Reg s K)), distributeLoop tol rs.length k (0 : RV s K) l = .ok l := by
      intro k l
      rw [hn, loop_succ, if_neg]
      rw [total_zero, abs_zero]
      rintro ⟨h, _⟩
      exact absurd h (not_lt.mpr ht.le)
    exact this _ _
  · simp
  · intro r hr
    simp only [List.map_map, List.mem_map] at hr
    obtain ⟨x, _, rfl⟩ := hr
    simp

/-- A single generator, whatever its limits: if it can deliver the requirement, it delivers exactly that, in every phase. -/
theorem allocate_single {tol : K} (ht : 0 < tol) (q : RV s K) (r : Reg s K) (h0 : r.alloc = 0) (hq : tol < |total q|)
    (hw : r.lim.Within 0 (total q)) :
    ∃ r', allocateIterative tol 1 q [r] = .ok [r'] ∧ r'.loadGen = r.loadGen ∧ r'.alloc = q := by
  obtain ⟨rs', h1, h2, h3⟩ := allocate_equal_share ht q [r] (by simpa using h0) (by simp) hq (by
    intro x hx
    rw [List.mem_singleton] at hx
    subst hx
    simp only [List.length_singleton, Nat.cast_one, div_one]
    refine ⟨fun m hm => ?_, fun m hm => ?_⟩
    · have := hw.1 m hm; linarith
    · have := hw.2 m hm; linarith)
  have hlen : rs'.length = 1 := by simpa using congrArg List.length h2
  obtain ⟨r', rfl⟩ := List.length_eq_one_iff.mp hlen
  refine ⟨r', by simpa using h1, by simpa using h2, ?_⟩
  simpa using h3 r' (by simp)

/-- When the bus limit is violated, every generator delivers exactly its own limit in that direction. -/
theorem violated_at_limit {tol : K} (ht : 0 ≤ tol) (v : Violation) (baseQ : Nat → RV s K) (rs : List (Reg s K)) :
    (allocateViolated tol v baseQ rs).map (·.loadGen) = rs.map (·.loadGen) ∧
    (allocateViolated tol v baseQ rs).map (·.lim) = rs.map (·.lim) ∧
    ∀ r ∈ allocateViolated tol v baseQ rs,
      (v = .upper → ∀ m, r.lim.qMax = some m → total r.alloc = m) ∧
      (v = .lower → ∀ m, r.lim.qMin = some m → total r.alloc = m) := by
  refine ⟨by simp [allocateViolated], by simp [allocateViolated], fun r hr => ?_⟩
  unfold allocateViolated at hr
  rw [List.mem_map] at hr
  obtain ⟨x, _, rfl⟩ := hr
  simp only [total_distribute ht]
  refine ⟨fun hv m hm => ?_, fun hv m hm => ?_⟩
  · rw [if_pos hv, hm]; rfl
  · rw [if_neg (by rw [hv]; simp), hm]; rfl

/-! ## The load/generators of a bus -/

/-- A generator that regulates: it and its regulator are switched on. -/
def IsRegulating (g : Gen K) (l : Limits K) : Prop := g.on = true ∧ g.regulator = some (true, l)

theorem regulating_iff (g : Gen K) (l : Limits K) : regulating g = some l ↔ IsRegulating g l := by
  unfold regulating IsRegulating
  rcases g with ⟨on, reg⟩
  rcases reg with _ | ⟨st, l'⟩
  · simp
  · cases st <;> cases on <;> simp

theorem init_spec (gens : Nat → Gen K) (out : Nat → PQ s K) (is : List Nat) :
    (initRegulators gens out is).1.map (·.loadGen) = is.filter (fun i => (regulating (gens i)).isSome) ∧
    (∀ r ∈ (initRegulators gens out is).1, regulating (gens r.loadGen) = some r.lim ∧ r.alloc = 0) ∧
    total (initRegulators gens out is).2 =
      ((is.filter fun i => !(regulating (gens i)).isSome).map fun i => total (out i).q).sum := by
  induction is with
  | nil => simp [initRegulators, total_zero]
  | cons i is ih =>
    obtain ⟨i1, i2, i3⟩ := ih
    simp only [initRegulators]
    cases hr : regulating (gens i) with
    | none =>
      refine ⟨by simp [hr, i1], i2, ?_⟩
      simp [hr, total_add, i3]
    | some l =>
      refine ⟨by simp [hr, i1], ?_, by simp [hr, i3]⟩
      intro r hr'
      rcases List.mem_cons.mp hr' with rfl | hr'
      · exact ⟨hr, rfl⟩
      · exact i2 r hr'

theorem apply_spec (rs : List (Reg s K)) (hn : (rs.map (·.loadGen)).Nodup) (out : Nat → PQ s K) :
    (∀ i, (apply out rs i).p = (out i).p) ∧ (∀ i, i ∉ rs.map (·.loadGen) → apply out rs i = out i) ∧
    (∀ r ∈ rs, (apply out rs r.loadGen).q = r.alloc) := by
  induction rs generalizing out with
  | nil => simp [apply]
  | cons r rs ih =>
    simp only [List.map_cons, List.nodup_cons] at hn
    have key := ih hn.2 (Function.update out r.loadGen ⟨(out r.loadGen).p, r.alloc⟩)
    obtain ⟨k1, k2, k3⟩ := key
    have hap : apply out (r :: rs) = apply (Function.update out r.loadGen ⟨(out r.loadGen).p, r.alloc⟩) rs := rfl
    rw [hap]
    refine ⟨fun i => ?_, fun i hi => ?_, fun x hx => ?_⟩
    · rw [k1]
      by_cases hi : i = r.loadGen
      · subst hi; simp
      · rw [Function.update_of_ne hi]
    · simp only [List.map_cons, List.mem_cons, not_or] at hi
      rw [k2 i hi.2, Function.update_of_ne hi.1]
    · rcases List.mem_cons.mp hx with rfl | hx
      · rw [k2 _ hn.1]; simp
      · exact k3 x hx

theorem sum_split (p : Nat → Bool) (f : Nat → K) (is : List Nat) :
    (is.map f).sum = ((is.filter p).map f).sum + ((is.filter fun i => !p i).map f).sum := by
  induction is with
  | nil => simp
  | cons i is ih =>
    cases h : p i <;> simp [h, ih] <;> ring

theorem sum_regs {rs : List (Reg s K)} {is : List Nat} (h : rs.map (·.loadGen) = is) (f : Nat → K) :
    (is.map f).sum = (rs.map fun r => f r.loadGen).sum := by
  rw [← h, List.map_map]; rfl

theorem map_congr_sum {rs : List (Reg s K)} {f g : Reg s K → K} (h : ∀ r ∈ rs, f r = g r) :
    (rs.map f).sum = (rs.map g).sum := by
  rw [List.map_congr_left h]

/-- The reactive power that the rest of the grid requires at a bus can be delivered: keep the load/generators that do not
regulate, choose values within the limits for those that do, and the values add up. -/
def BusFeasible (gens : Nat → Gen K) (loadGens : List Nat) (before : Nat → PQ s K) (required : RV s K) : Prop :=
  ∃ x : Nat → K,
    (∀ i ∈ loadGens, ∀ l, IsRegulating (gens i) l → l.Within 0 (x i)) ∧
    (∀ i ∈ loadGens, (∀ l, ¬IsRegulating (gens i) l) → x i = total (before i).q) ∧
    (loadGens.map x).sum = total required

/-- At a bus without violation whose regulated generators may deliver zero: if the requirement can be met, the reported
reactive powers of all load/generators add up to it (up to the tolerance), every regulating generator is within its limits,
nothing else changes and no violation is reported. -/
theorem bus_reactive_power_partial {tol : K} (ht : 0 < tol) (gens : Nat → Gen K) (loadGens : List Nat) (hn : loadGens.Nodup)
    (required : RV s K) (before after : Nat → PQ s K) (report : List (Nat × Violation))
    (hreg : ∃ i ∈ loadGens, ∃ l, IsRegulating (gens i) l)
    (hz : ∀ i ∈ loadGens, ∀ l, IsRegulating (gens i) l → l.ContainsZero)
    (hf : BusFeasible gens loadGens before required)
    (h : regulatorResult tol gens loadGens required .none before = .ok (after, report)) :
    |(loadGens.map fun i => total (after i).q).sum - total required| ≤ tol ∧
    (∀ i ∈ loadGens, ∀ l, IsRegulating (gens i) l → l.Within tol (total (after i).q)) ∧
    (∀ i, (after i).p = (before i).p) ∧
    (∀ i, (i ∉ loadGens ∨ ∀ l, ¬IsRegulating (gens i) l) → after i = before i) ∧
    (∀ i v, (i, v) ∈ report ↔ (i ∈ loadGens ∧ ∃ l, IsRegulating (gens i) l) ∧ v = .none) := by
  obtain ⟨i1, i2, i3⟩ := init_spec gens before loadGens
  set w := initRegulators gens before loadGens with hw
  have hmem : ∀ i, i ∈ w.1.map (·.loadGen) ↔ i ∈ loadGens ∧ ∃ l, IsRegulating (gens i) l := by
    intro i
    rw [i1, List.mem_filter, Option.isSome_iff_exists]
    simp only [regulating_iff]
  have hne : w.1.isEmpty = false := by
    obtain ⟨i, hi, l, hl⟩ := hreg
    have := (hmem i).mpr ⟨hi, l, hl⟩
    cases hc : w.1 with
    | nil => rw [hc] at this; simp at this
    | cons => rfl
  unfold regulatorResult at h
  rw [← hw] at h
  simp only [hne, Bool.false_eq_true, if_false, if_true] at h
  cases hal : allocateIterative tol w.1.length (required - w.2) w.1 with
  | calculationError => rw [hal] at h; simp at h
  | running => rw [hal] at h; simp at h
  | ok rs =>
    rw [hal] at h
    simp only [Outcome.ok.injEq, Prod.mk.injEq] at h
    obtain ⟨rfl, rfl⟩ := h
    have hz' : ∀ r ∈ w.1, r.lim.ContainsZero := by
      intro r hr
      have hm := (hmem r.loadGen).mp (List.mem_map.mpr ⟨r, hr, rfl⟩)
      exact hz _ hm.1 _ ((regulating_iff _ _).mp (i2 r hr).1)
    have hff : Feasible (w.1.map (·.lim)) (total (required - w.2)) := by
      obtain ⟨x, x1, x2, x3⟩ := hf
      refine ⟨w.1.map fun r => x r.loadGen, by simp, ?_, ?_⟩
      · intro y hy
        rw [List.zip_map', List.mem_map] at hy
        obtain ⟨r, hr, rfl⟩ := hy
        have hm := (hmem r.loadGen).mp (List.mem_map.mpr ⟨r, hr, rfl⟩)
        exact x1 _ hm.1 _ ((regulating_iff _ _).mp (i2 r hr).1)
      · rw [total_sub, i3, ← x3, sum_split (fun i => (regulating (gens i)).isSome) x loadGens,
          ← sum_regs i1 x]
        have : ((loadGens.filter fun i => !(regulating (gens i)).isSome).map x).sum =
            ((loadGens.filter fun i => !(regulating (gens i)).isSome).map fun i => total (before i).q).sum := by
          congr 1
          apply List.map_congr_left
          intro i hi
          rw [List.mem_filter] at hi
          apply x2 i hi.1
          intro l hl
          rw [← regulating_iff] at hl
          simp [hl] at hi
        rw [this]; ring
    obtain ⟨a1, a2, a3, a4⟩ := allocate_correct_partial ht _ _ _ (fun r hr => (i2 r hr).2) hz' hff hal
    have hnd : (rs.map (·.loadGen)).Nodup := by
      rw [a4, i1]; exact hn.filter _
    obtain ⟨p1, p2, p3⟩ := apply_spec rs hnd before
    have hlim : ∀ r ∈ rs, regulating (gens r.loadGen) = some r.lim := by
      intro r hr
      have h1 : (r.loadGen, r.lim) ∈ rs.map fun r => (r.loadGen, r.lim) := List.mem_map.mpr ⟨r, hr, rfl⟩
      have h2 : (rs.map fun r => (r.loadGen, r.lim)) = w.1.map fun r => (r.loadGen, r.lim) := by
        have e1 : (rs.map fun r => (r.loadGen, r.lim)) = (rs.map (·.loadGen)).zip (rs.map (·.lim)) := by
          rw [List.zip_map']
        have e2 : (w.1.map fun r => (r.loadGen, r.lim)) = (w.1.map (·.loadGen)).zip (w.1.map (·.lim)) := by
          rw [List.zip_map']
        rw [e1, e2, a3, a4]
      rw [h2, List.mem_map] at h1
      obtain ⟨x, hx, he⟩ := h1
      simp only [Prod.mk.injEq] at he
      rw [← he.1, ← he.2]
      exact (i2 x hx).1
    refine ⟨?_, ?_, p1, ?_, ?_⟩
    · rw [sum_split (fun i => (regulating (gens i)).isSome) (fun i => total (apply before rs i).q) loadGens,
        sum_regs (a4.trans i1) (fun i => total (apply before rs i).q),
        map_congr_sum (g := fun r => total r.alloc) (fun r hr => by rw [p3 r hr])]
      have : ((loadGens.filter fun i => !(regulating (gens i)).isSome).map fun i => total (apply before rs i).q).sum =
          total w.2 := by
        rw [i3]
        congr 1
        apply List.map_congr_left
        intro i hi
        rw [List.mem_filter] at hi
        rw [p2 i]
        rw [a4, i1, List.mem_filter]
        rintro ⟨_, hh⟩
        simp [hh] at hi
      rw [this]
      rw [total_sub] at a2
      convert a2 using 2
      ring
    · intro i hi l hl
      have : i ∈ rs.map (·.loadGen) := by rw [a4]; exact (hmem i).mpr ⟨hi, l, hl⟩
      obtain ⟨r, hr, rfl⟩ := List.mem_map.mp this
      have e := hlim r hr
      rw [(regulating_iff _ _).mpr hl] at e
      injection e with e
      rw [p3 r hr, e]
      exact a1 r hr
    · intro i hi
      apply p2
      rw [a4, hmem]
      rintro ⟨h1, l, h2⟩
      rcases hi with hi | hi
      · exact hi h1
      · exact hi l h2
    · intro i v
      rw [← hmem, ← a4]
      simp only [List.mem_map, Prod.mk.injEq]
      constructor
      · rintro ⟨r, hr, h1, h2⟩
        exact ⟨⟨r, hr, h1⟩, h2.symm⟩
      · rintro ⟨⟨r, hr, h1⟩, h2⟩
        exact ⟨r, hr, h1, h2.symm⟩

/-- At a bus whose limit is violated every regulating generator delivers exactly its limit in that direction, the violation is
reported for each of them, and nothing else changes. -/
theorem bus_violation_reported {tol : K} (ht : 0 ≤ tol) (gens : Nat → Gen K) (loadGens : List Nat) (hn : loadGens.Nodup)
    (required : RV s K) (v : Violation) (hv : v ≠ .none) (before : Nat → PQ s K)
    (hreg : ∃ i ∈ loadGens, ∃ l, IsRegulating (gens i) l) :
    ∃ after report, regulatorResult tol gens loadGens required v before = .ok (after, report) ∧
    (∀ i ∈ loadGens, ∀ l, IsRegulating (gens i) l →
      (v = .upper → ∀ m, l.qMax = some m → total (after i).q = m) ∧
      (v = .lower → ∀ m, l.qMin = some m → total (after i).q = m)) ∧
    (∀ i, (after i).p = (before i).p) ∧
    (∀ i, (i ∉ loadGens ∨ ∀ l, ¬IsRegulating (gens i) l) → after i = before i) ∧
    (∀ i v', (i, v') ∈ report ↔ (i ∈ loadGens ∧ ∃ l, IsRegulating (gens i) l) ∧ v' = v) := by
  obtain ⟨i1, i2, _⟩ := init_spec gens before loadGens
  set w := initRegulators gens before loadGens with hw
  have hmem : ∀ i, i ∈ w.1.map (·.loadGen) ↔ i ∈ loadGens ∧ ∃ l, IsRegulating (gens i) l := by
    intro i
    rw [i1, List.mem_filter, Option.isSome_iff_exists]
    simp only [regulating_iff]
  have hne : w.1.isEmpty = false := by
    obtain ⟨i, hi, l, hl⟩ := hreg
    have := (hmem i).mpr ⟨hi, l, hl⟩
    cases hc : w.1 with
    | nil => rw [hc] at this; simp at this
    | cons => rfl
  obtain ⟨a4, a3, a1⟩ := violated_at_limit ht v (fun i => (before i).q) w.1
  set rs := allocateViolated tol v (fun i => (before i).q) w.1 with hrs
  refine ⟨apply before rs, rs.map fun r => (r.loadGen, v), ?_, ?_⟩
  · unfold regulatorResult
    rw [← hw]
    simp only [hne, Bool.false_eq_true, if_false, hv]
    rfl
  have hnd : (rs.map (·.loadGen)).Nodup := by
    rw [a4, i1]; exact hn.filter _
  obtain ⟨p1, p2, p3⟩ := apply_spec rs hnd before
  have hlim : ∀ r ∈ rs, regulating (gens r.loadGen) = some r.lim := by
    intro r hr
    rw [hrs, allocateViolated, List.mem_map] at hr
    obtain ⟨x, hx, rfl⟩ := hr
    exact (i2 x hx).1
  refine ⟨?_, p1, ?_, ?_⟩
  · intro i hi l hl
    have : i ∈ rs.map (·.loadGen) := by rw [a4]; exact (hmem i).mpr ⟨hi, l, hl⟩
    obtain ⟨r, hr, rfl⟩ := List.mem_map.mp this
    have e := hlim r hr
    rw [(regulating_iff _ _).mpr hl] at e
    injection e with e
    rw [p3 r hr, e]
    exact a1 r hr
  · intro i hi
    apply p2
    rw [a4, hmem]
    rintro ⟨h1, l, h2⟩
    rcases hi with hi | hi
    · exact hi h1
    · exact hi l h2
  · intro i v'
    rw [← hmem, ← a4]
    simp only [List.mem_map, Prod.mk.injEq]
    constructor
    · rintro ⟨r, hr, h1, h2⟩
      exact ⟨⟨r, hr, h1⟩, h2.symm⟩
    · rintro ⟨⟨r, hr, h1⟩, h2⟩
      exact ⟨r, hr, h1, h2.symm⟩

/-! ## Witnesses -/

section Witness

/-- Symmetric value over the rationals. -/
def rv1 (x : ℚ) : RV .sym ℚ := fun _ => x

/-- Asymmetric value over the rationals. -/
def rv3 (a b c : ℚ) : RV .asym ℚ := fun p => if p.val = 0 then a else if p.val = 1 then b else c

/-- The reactive powers of the two generators of a bus after the distribution with limits `l0`, `l1`, `none` on error. -/
def twoGens (tol q : ℚ) (l0 l1 : Limits ℚ) : Option (List ℚ) :=
  match regulatorResult tol (fun i => ⟨true, some (true, if i = 0 then l0 else l1)⟩) [0, 1] (rv1 q) .none
      (fun _ => ⟨rv1 1, rv1 0⟩) with
  | .ok (after, _) => some [total (after 0).q, total (after 1).q]
  | _ => none

/-- The tolerance of the code, 1e-8. -/
def codeTol : ℚ := 1 / 100000000

/-- The hypotheses of `bus_reactive_power_partial` can be met: 8 is distributed over a generator that is limited to 3 and one
that is limited to 10. -/
example : twoGens codeTol 8 ⟨some (-3), some 3⟩ ⟨some (-10), some 10⟩ = some [3, 5] := by
  decide +kernel

/-- The requirement 17/2 can be met by a generator with limits 5 and 10 and one with limits 0 and 3 (deliver 11/2 and 3), but
the distribution fixes the first at its lower limit, then has nobody left, and silently delivers 8. -/
theorem feasible_requirement_missed :
    BusFeasible (s := .sym) (fun i => (⟨true, some (true, if i = 0 then ⟨some 5, some 10⟩ else ⟨some 0, some 3⟩)⟩ : Gen ℚ))
      [0, 1] (fun _ => ⟨rv1 1, rv1 0⟩) (rv1 (17 / 2)) ∧
    twoGens codeTol (17 / 2) ⟨some 5, some 10⟩ ⟨some 0, some 3⟩ = some [5, 3] := by
  refine ⟨⟨fun i => if i = 0 then 11 / 2 else 3, ?_, ?_, ?_⟩, by decide +kernel⟩
  · intro i hi l hl
    simp only [List.mem_cons, List.not_mem_nil, or_false] at hi
    obtain ⟨_, hl⟩ := hl
    simp only [Option.some.injEq, Prod.mk.injEq, true_and] at hl
    subst hl
    rcases hi with rfl | rfl
    · constructor <;> intro m hm <;> simp at hm <;> subst hm <;> norm_num
    · constructor <;> intro m hm <;> simp at hm <;> subst hm <;> norm_num
  · intro i _ hi
    exact absurd ⟨rfl, rfl⟩ (hi _)
  · decide +kernel

/-- The requirement 10 can be met by a generator with limits -10 and -5 and one with limits -100 and 100 (deliver -5 and 15),
but the distribution raises an error because its first pass moves no net power. -/
theorem spurious_error :
    BusFeasible (s := .sym)
      (fun i => (⟨true, some (true, if i = 0 then ⟨some (-10), some (-5)⟩ else ⟨some (-100), some 100⟩)⟩ : Gen ℚ))
      [0, 1] (fun _ => ⟨rv1 1, rv1 0⟩) (rv1 10) ∧
    twoGens codeTol 10 ⟨some (-10), some (-5)⟩ ⟨some (-100), some 100⟩ = none := by
  refine ⟨⟨fun i => if i = 0 then -5 else 15, ?_, ?_, ?_⟩, by decide +kernel⟩
  · intro i hi l hl
    simp only [List.mem_cons, List.not_mem_nil, or_false] at hi
    obtain ⟨_, hl⟩ := hl
    simp only [Option.some.injEq, Prod.mk.injEq, true_and] at hl
    subst hl
    rcases hi with rfl | rfl
    · constructor <;> intro m hm <;> simp at hm <;> subst hm <;> norm_num
    · constructor <;> intro m hm <;> simp at hm <;> subst hm <;> norm_num
  · intro i _ hi
    exact absurd ⟨rfl, rfl⟩ (hi _)
  · decide +kernel

/-- A requirement of zero in total is not distributed at all, even if the limits exclude zero. -/
theorem zero_requirement_ignores_limits :
    twoGens codeTol 0 ⟨some 5, some 10⟩ ⟨some (-10), some (-5)⟩ = some [0, 0] := by
  decide +kernel

/-- In asymmetric calculations the requirement is met in total but not per phase: a requirement of 10, -10 and 0 in the three
phases is not distributed. -/
theorem phase_requirement_missed :
    ∃ after report, regulatorResult codeTol (fun _ => (⟨true, some (true, ⟨none, none⟩)⟩ : Gen ℚ)) [0]
      (rv3 10 (-10) 0) .none
      (fun _ => ⟨0, 0⟩) = .ok (after, report) ∧ (after 0).q (0 : Fin 3) = 0 := by
  refine ⟨apply (fun _ => ⟨0, 0⟩) [⟨0, ⟨none, none⟩, true, 0⟩], [(0, .none)], ?_, ?_⟩
  · have : total (rv3 10 (-10) 0) = 0 := by
      decide +kernel
    unfold regulatorResult
    simp only [initRegulators, regulating, if_true, List.isEmpty_cons, Bool.false_eq_true, if_false, sub_zero,
      allocateIterative, List.length_cons, List.length_nil, List.map_cons, List.map_nil]
    rw [loop_succ, if_neg]
    · rfl
    · rw [this, abs_zero]
      rintro ⟨h, _⟩
      exact absurd h (by decide +kernel)
  · rfl

end Witness

end PGM.PowerFlow
