import Verif.Output.Current

/-!
# C34 for current sensors: the property
-/

namespace PGM.Output

open PGM.Container PGM.Input PGM.Update PGM.Topology PGM.PowerFlow PGM.Component

variable {K : Type} {σ : Symm}

/-! ## Lemmas -/

theorem branch_cnt {D : CompType → List (Elem K)} {c : Container (Comp K)} (h : build D = .ok c) :
    c.vectors.length = 22 ∧ (∀ t, t ∈ branchTypes → cnt isBaseOf .branch c (group t) = (D t).length) ∧
      ∀ g, g = 0 ∨ 5 < g → cnt isBaseOf .branch c g = 0 := by
  refine ⟨(build_inv h).ref.len, ?_, ?_⟩
  · intro t ht
    have : isBaseOf .branch (group t) = true := by simp only [branchTypes] at ht; fin_cases ht <;> rfl
    simp [cnt, List.getD_eq_getElem?_getD, build_contents D c h t, this]
  · intro g hg
    have : isBaseOf .branch g = false := by
      simp only [isBaseOf, Bool.and_eq_false_iff, decide_eq_false_iff_not]
      omega
    simp [cnt, this]

/-- The index is in range of the vector of branches only below the number of branches. -/
theorem branch_total {D : CompType → List (Elem K)} {c : Container (Comp K)} (h : build D = .ok c) :
    size isBaseOf .branch c = (branchTypes.map fun t => (D t).length).sum := by
  obtain ⟨h1, h2, h3⟩ := branch_cnt h
  have a0 := h3 0 (by omega)
  have a1 := h2 .line (by decide)
  have a2 := h2 .asymLine (by decide)
  have a3 := h2 .link (by decide)
  have a4 := h2 .genericBranch (by decide)
  have a5 := h2 .transformer (by decide)
  have := fun g (hg : 5 < g) => h3 g (.inr hg)
  simp only [group] at a1 a2 a3 a4 a5
  rw [size_eq, h1]
  simp only [psum, a0, a1, a2, a3, a4, a5, this 6 (by omega), this 7 (by omega), this 8 (by omega), this 9 (by omega), this 10 (by omega), this 11 (by omega),
    this 12 (by omega), this 13 (by omega), this 14 (by omega), this 15 (by omega), this 16 (by omega), this 17 (by omega), this 18 (by omega), this 19 (by omega), this 20 (by omega),
    this 21 (by omega)]
  simp [branchTypes]
  omega

theorem topologyIndex_first {D : CompType → List (Elem K)} {c : Container (Comp K)} (h : build D = .ok c) {g p : Nat} (hg : g ≤ 1) :
    currentSensorTopologyIndex c (g, p) = some p := by
  obtain ⟨h1, _, h3⟩ := branch_cnt h
  have a0 := h3 0 (by omega)
  have hg' : g < 22 + 1 := by omega
  simp only [currentSensorTopologyIndex, getSeq, cumSize_tab, h1]
  rcases Nat.le_one_iff_eq_zero_or_eq_one.mp hg with rfl | rfl <;> simp [psum, a0]

theorem topologyIndex_ge {c : Container (Comp K)} {m : Nat × Nat} {i : Nat} (h : currentSensorTopologyIndex c m = some i) : m.2 ≤ i := by
  simp only [currentSensorTopologyIndex, getSeq, bind, Option.bind_eq_some_iff, pure, Option.some.injEq] at h
  obtain ⟨a, _, rfl⟩ := h
  omega

theorem registered_out {β : Type} {cls : Cls} {c : Container (Comp K)} {f : Comp K → Option β} {s : Nat} (h : size isBaseOf cls c ≤ s) :
    registered cls c f s = none := by
  have : (iter isBaseOf cls c)[s]? = none := by simp [iter, h]
  simp [registered, this]

/-- The voltage of a node in its record. -/
theorem node_record_voltage {D : CompType → List (Elem K)} {c : Container (Comp K)} (h : build D = .ok c) {A : Attr} {O : Objects}
    {sol : List (Sol σ)} {r : NodeOut σ} (hr : some r ∈ nodeRecords A c O sol) {k : Nat} {e : Elem K} (hk : (D .node)[k]? = some e)
    (hid : r.id = e.id) :
    (r.energized = true → ∃ u, nodeVoltage O sol k = some u ∧ ∀ j, r.uAngle j = (u j).arg) ∧
      (r.energized = false → nodeVoltage O sol k = none) := by
  obtain ⟨k2, e2, s2, y, hk2, hs2, hy, hf2⟩ := mem_produce h hr
  cases hy
  have h1 := nodeResult_id hf2
  simp only at h1
  obtain ⟨_, h4⟩ := id_unique h (List.mem_of_getElem? hk2) (List.mem_of_getElem? hk) (by rw [← hid, h1])
  subst h4
  rw [show seqById (baseOf .node) c e2.id = some k from node_seq h hk] at hs2
  cases hs2
  cases hm : O.node k with
  | none =>
    simp only [nodeResult, hm, Option.some.injEq] at hf2
    subst hf2
    refine ⟨fun hx => (by cases hx), fun _ => by simp [nodeVoltage, hm]⟩
  | some m =>
    simp only [nodeResult, hm, bind, Option.bind_eq_some_iff, Option.some.injEq] at hf2
    obtain ⟨inj, _, u, hu, hf2⟩ := hf2
    subst hf2
    refine ⟨fun _ => ⟨u, by simp [nodeVoltage, hm, hu], fun j => rfl⟩, fun hx => (by cases hx)⟩

/-- The reported current of a branch at which a sensor is. -/
theorem reportsCurrent_branch {D : CompType → List (Elem K)} {c : Container (Comp K)} (h : build D = .ok c) {A : Attr} {O : Objects}
    {sol : List (Sol σ)} {n id : Int} (hn : n = 0 ∨ n = 1) {en : Bool} {i : RV σ ℝ} (hr : ReportsCurrent A c O sol n id en i) {tb : CompType} {kb : Nat} {b : Elem K}
    (hb : (D tb)[kb]? = some b) (hid : b.id = id) :
    ∃ r, branchResult A O sol ⟨tb, b⟩ (position D tb kb) = some r ∧ en = r.energized ∧ i = if n = 0 then r.iFrom else r.iTo := by
  have key : ∀ (t : CompType) (r : BranchOut σ), some r ∈ branchRecords t A c O sol → r.id = id →
      branchResult A O sol ⟨tb, b⟩ (position D tb kb) = some r := by
    intro t r hr hrid
    obtain ⟨k2, e2, s2, y, hk2, hs2, hy, hf2⟩ := mem_produce h hr
    cases hy
    have h1 := branchResult_id hf2
    simp only at h1
    obtain ⟨h3, h4⟩ := id_unique h (List.mem_of_getElem? hk2) (List.mem_of_getElem? hb) (by rw [hid, ← hrid, h1])
    subst h3 h4
    rw [seq_position h hb] at hs2
    cases hs2
    exact hf2
  cases hr with
  | branchFrom t r ht hr => exact ⟨r, key t r hr rfl, rfl, by simp⟩
  | branchTo t r ht hr => exact ⟨r, key t r hr rfl, rfl, by simp⟩
  | branch3 j r hr => omega

theorem reportsCurrent_branch3 {D : CompType → List (Elem K)} {c : Container (Comp K)} (h : build D = .ok c) {A : Attr} {O : Objects}
    {sol : List (Sol σ)} {id : Int} {j : Fin 3} {en : Bool} {i : RV σ ℝ} (hr : ReportsCurrent A c O sol (6 + (j : Nat)) id en i) {kb : Nat} {b : Elem K}
    (hb : (D .threeWindingTransformer)[kb]? = some b) (hid : b.id = id) :
    ∃ r, branch3Result A O sol ⟨.threeWindingTransformer, b⟩ kb = some r ∧ en = r.energized ∧ i = r.i j := by
  generalize hn : (6 + (j : Nat) : Int) = n at hr
  cases hr with
  | branchFrom t r ht hr => omega
  | branchTo t r ht hr => omega
  | branch3 j' r hr =>
    have : j = j' := by apply Fin.ext; omega
    subst this
    obtain ⟨k2, e2, s2, y, hk2, hs2, hy, hf2⟩ := mem_produce h hr
    cases hy
    have h1 := branch3Result_id hf2
    simp only at h1
    obtain ⟨_, h4⟩ := id_unique h (List.mem_of_getElem? hk2) (List.mem_of_getElem? hb) (by rw [hid, h1])
    subst h4
    rw [seq_position h hb, show position D .threeWindingTransformer kb = kb by simp [position, family]] at hs2
    cases hs2
    exact ⟨r, hf2, rfl, rfl⟩

theorem calculates_branch {D : CompType → List (Elem K)} {c : Container (Comp K)} (h : build D = .ok c) {O : Objects} {sol : List (Sol σ)} {n id : Int}
    (hn : n = 0 ∨ n = 1) {i : CV σ} (hc : CalculatesCurrent c O sol n id i) {tb : CompType} (htb : tb ∈ branchTypes) {kb : Nat} {b : Elem K}
    (hb : (D tb)[kb]? = some b) (hid : b.id = id) :
    ∃ m r, O.branch (position D tb kb) = some m ∧ at2 sol Sol.branch m = some r ∧ i = endCurrent n r := by
  have hs := seq_position h hb
  rw [branch_base htb, hid] at hs
  cases hc with
  | branchFrom _ s m x r h1 h2 h3 h4 =>
    rw [h1] at hs; cases hs
    exact ⟨m, r, h2, by simp [at2, h3, h4], by simp [endCurrent]⟩
  | branchTo _ s m x r h1 h2 h3 h4 =>
    rw [h1] at hs; cases hs
    exact ⟨m, r, h2, by simp [at2, h3, h4], by simp [endCurrent]⟩
  | branch3 j => omega

theorem calculates_branch3 {D : CompType → List (Elem K)} {c : Container (Comp K)} (h : build D = .ok c) {O : Objects} {sol : List (Sol σ)} {id : Int}
    {j : Fin 3} {i : CV σ} (hc : CalculatesCurrent c O sol (6 + (j : Nat)) id i) {kb : Nat} {b : Elem K}
    (hb : (D .threeWindingTransformer)[kb]? = some b) (hid : b.id = id) :
    ∃ m r, O.branch3 kb = some m ∧ at2 sol Sol.branch (m.1, m.2 j) = some r ∧ i = r.iF := by
  have hs := seq_position h hb
  rw [hid, show position D .threeWindingTransformer kb = kb by simp [position, family]] at hs
  generalize hn : (6 + (j : Nat) : Int) = n at hc
  cases hc with
  | branchFrom => omega
  | branchTo => omega
  | branch3 j' _ s m x r h1 h2 h3 h4 =>
    have : j = j' := by apply Fin.ext; omega
    subst this
    rw [show seqById (baseOf .threeWindingTransformer) c id = some s from h1] at hs
    cases hs
    exact ⟨m, r, h2, by simp [at2, h3, h4], rfl⟩

theorem node_rated {D : CompType → List (Elem K)} {c : Container (Comp K)} (h : build D = .ok c) {A : Attr}
    (hu : ∀ nd ∈ D .node, 0 < A.uRated nd.id) {t : CompType} {e : Elem K} (he : e ∈ D t) {id : Int} (hr : (id, [CompType.node]) ∈ refs t e) :
    0 < A.uRated id := by
  obtain ⟨k, e', hk, hid⟩ := node_of_ref h he hr
  rw [← hid]
  exact hu e' (List.mem_of_getElem? hk)

/-! ## Property -/

/-- C34, current sensors, partial. For every input from which a model can be built, every place of its components in the calculation and every result of the
calculation: if there is a record for a current sensor, it carries the ID of the sensor and compares with the terminal of the component that the sensor refers to by ID. The sensor is
energised if and only if that component is. If so, the residual of the magnitude is the measured current minus the reported current of the terminal. If the sensor's angle is relative to the reference,
the residual of the angle is the measured angle minus the angle of the calculated current of the terminal.

Missing: the existence of a record, which fails for most sensors at three-winding transformers (`current_sensor_branch3_undefined`) and at open ends
(`current_sensor_open_end_undefined`), and the angle of a sensor relative to the voltage, which may be that of another node (`current_sensor_angle_of_other_node`); see
`current_sensor_local_partial` for when both are right. -/
theorem current_sensor_residual_partial {D : CompType → List (Elem K)} {c : Container (Comp K)} (h : build D = .ok c) (A : Attr) (O : Objects)
    (sol : List (Sol σ)) (t : CompType) (ht : t ∈ [CompType.symCurrentSensor, .asymCurrentSensor]) (k : Nat) (e : Elem K)
    (hk : (D t)[k]? = some e) (hu : ∀ nd ∈ D .node, 0 < A.uRated nd.id)
    (hl : ∀ tb ∈ [CompType.line, .asymLine], ∀ b ∈ D tb, A.uRated b.n1 = A.uRated b.n2)
    (out : CurrentSensorOut σ) (hout : (currentSensorRecords t A c O sol)[k]? = some (some out)) :
    out.id = e.id ∧ ∀ en i, ReportsCurrent A c O sol e.terminal e.object en i → out.energized = en ∧
      (en = false → out.iResidual = 0 ∧ out.iAngleResidual = 0 ∧ i = 0) ∧
      (en = true → ∀ j I θ, MeasuresCurrent σ (A.current e.id) j I θ → 0 ≤ I → out.iResidual j = I - i j ∧
        (A.localAngle e.id = false → 0 < I → ∀ ic, CalculatesCurrent c O sol e.terminal e.object ic →
          IsAngle (out.iAngleResidual j) (θ - (ic j).arg))) := by
  have off : ∀ {en : Bool} {i : RV σ ℝ}, out = currentSensorNull ⟨t, e⟩ → en = false → i = 0 → out.energized = en ∧
      (en = false → out.iResidual = 0 ∧ out.iAngleResidual = 0 ∧ i = 0) ∧
      (en = true → ∀ j I θ, MeasuresCurrent σ (A.current e.id) j I θ → 0 ≤ I → out.iResidual j = I - i j ∧
        (A.localAngle e.id = false → 0 < I → ∀ ic, CalculatesCurrent c O sol e.terminal e.object ic →
          IsAngle (out.iAngleResidual j) (θ - (ic j).arg))) := by
    intro en i h1 h2 h3
    subst h1 h2 h3
    exact ⟨rfl, fun _ => ⟨rfl, rfl, rfl⟩, fun hx => (by cases hx)⟩
  rcases current_target h ht (List.mem_of_getElem? hk) with ⟨hn, tb, htb, kb, b, hb, hid⟩ | ⟨j3, hn, kb, b, hb, hid⟩
  · have htb' := mem_branchTypes htb
    rw [current_branch h A O sol ht hk hn htb' hb hid] at hout
    have hout := Option.some.inj hout
    cases hm : O.branch (position D tb kb) with
    | none =>
      rw [hm] at hout
      have hout := (Option.some.inj hout).symm
      refine ⟨by rw [hout]; rfl, fun en i hr => ?_⟩
      obtain ⟨r, h1, h2, h3⟩ := reportsCurrent_branch h hn hr hb hid
      simp only [branchResult, hm, Option.some.injEq] at h1
      refine off hout (by rw [h2, ← h1]; rfl) (by rw [h3, ← h1]; simp [branchNull])
    | some m =>
      rw [hm] at hout
      simp only [Option.bind_eq_some_iff, Option.some.injEq] at hout
      obtain ⟨ti, _, nn, _, rb, hrb, u, _, hout⟩ := hout
      refine ⟨by rw [← hout]; rfl, fun en i hr => ?_⟩
      obtain ⟨r, h1, h2, h3⟩ := reportsCurrent_branch h hn hr hb hid
      simp only [branchResult, hm, hrb, bind, Option.bind_some, Option.some.injEq] at h1
      have hen : en = true := by rw [h2, ← h1]; rfl
      refine ⟨by rw [← hout, hen]; rfl, fun hx => (by rw [hen] at hx; cases hx), ?_⟩
      intro _ j I θ hmeas hI
      have hur : 0 < A.uRated (endNode e.terminal b) := by
        apply node_rated h hu (List.mem_of_getElem? hb)
        rcases hn with hn | hn <;> rw [hn] <;> fin_cases htb <;> simp [refs, endNode]
      obtain ⟨c1, c2⟩ := current_residual (A := A) (x := ⟨t, e⟩) (i := endCurrent e.terminal rb) (u := u) hur hmeas hI
      rw [hout] at c1 c2
      refine ⟨?_, ?_⟩
      · rw [c1, h3, ← h1]
        rcases hn with hn | hn
        · simp [hn, endNode, endCurrent, branchOutput]
        · simp only [hn, endNode, endCurrent, branchOutput, one_ne_zero, if_false]
          have : ratedTo A (⟨tb, b⟩ : Comp K) = A.uRated b.n2 := by
            fin_cases htb
            · exact hl .line (by decide) b (List.mem_of_getElem? hb)
            · exact hl .asymLine (by decide) b (List.mem_of_getElem? hb)
            · rfl
            · rfl
          rw [this]
      · intro hloc hpos ic hc
        obtain ⟨m', r', hm', hr', hi⟩ := calculates_branch h hn hc htb' hb hid
        rw [hm] at hm'
        cases hm'
        rw [hrb] at hr'
        cases hr'
        rw [hi]
        exact (c2 hpos).1 hloc
  · rw [current_branch3 h A O sol ht hk hn hb hid] at hout
    have hout := Option.some.inj hout
    rw [hn]
    rw [hn] at off
    cases hm : O.branch3 kb with
    | none =>
      rw [hm] at hout
      have hout := (Option.some.inj hout).symm
      refine ⟨by rw [hout]; rfl, fun en i hr => ?_⟩
      obtain ⟨r, h1, h2, h3⟩ := reportsCurrent_branch3 h hr hb hid
      simp only [branch3Result, hm, Option.some.injEq] at h1
      refine off hout (by rw [h2, ← h1]; rfl) (by rw [h3, ← h1]; rfl)
    | some m =>
      rw [hm] at hout
      simp only [Option.bind_eq_some_iff, Option.some.injEq] at hout
      obtain ⟨ti, _, nn, _, rb, hrb, u, _, hout⟩ := hout
      refine ⟨by rw [← hout]; rfl, fun en i hr => ?_⟩
      obtain ⟨r, h1, h2, h3⟩ := reportsCurrent_branch3 h hr hb hid
      simp only [branch3Result, hm, bind, Option.bind_eq_some_iff, Option.some.injEq] at h1
      obtain ⟨r0, g0, r1, g1, r2, g2, h1⟩ := h1
      have hen : en = true := by rw [h2, ← h1]; rfl
      refine ⟨by rw [← hout, hen]; rfl, fun hx => (by rw [hen] at hx; cases hx), ?_⟩
      intro _ j I θ hmeas hI
      have hur : 0 < A.uRated (node3 (⟨.threeWindingTransformer, b⟩ : Comp K) j3) := by
        apply node_rated h hu (List.mem_of_getElem? hb)
        fin_cases j3 <;> simp [refs, node3]
      obtain ⟨c1, c2⟩ := current_residual (A := A) (x := ⟨t, e⟩) (i := rb.iF) (u := u) hur hmeas hI
      rw [hout] at c1 c2
      refine ⟨?_, ?_⟩
      · rw [c1, h3, ← h1]
        simp only [branch3Output]
        have : (![r0, r1, r2] : Fin 3 → BranchSol σ) j3 = rb := by
          fin_cases j3
          · exact Option.some.inj (g0.symm.trans hrb)
          · exact Option.some.inj (g1.symm.trans hrb)
          · exact Option.some.inj (g2.symm.trans hrb)
        rw [this]
      · intro hloc hpos ic hc
        obtain ⟨m', r', hm', hr', hi⟩ := calculates_branch3 h hc hb hid
        rw [hm] at hm'
        cases hm'
        rw [hrb] at hr'
        cases hr'
        rw [hi]
        exact (c2 hpos).1 hloc

/-- A current is reported at the terminal of every current sensor. -/
theorem current_sensor_terminal_reported {D : CompType → List (Elem K)} {c : Container (Comp K)} (h : build D = .ok c) (A : Attr) (O : Objects)
    (sol : List (Sol σ)) (hf : Fits O sol) (t : CompType) (ht : t ∈ [CompType.symCurrentSensor, .asymCurrentSensor]) (e : Elem K) (he : e ∈ D t) :
    ∃ en i, ReportsCurrent A c O sol e.terminal e.object en i := by
  rcases current_target h ht he with ⟨hn, tb, htb, kb, b, hb, hid⟩ | ⟨j3, hn, kb, b, hb, hid⟩
  · obtain ⟨r, h1, h2, _⟩ := (branch_records h A O sol hf tb (mem_branchTypes htb)).2 kb b hb
    rw [← hid, ← h2]
    rcases hn with hn | hn
    · rw [hn]; exact ⟨_, _, .branchFrom tb r (mem_branchTypes htb) (List.mem_of_getElem? h1)⟩
    · rw [hn]; exact ⟨_, _, .branchTo tb r (mem_branchTypes htb) (List.mem_of_getElem? h1)⟩
  · obtain ⟨r, h1, h2, _⟩ := (branch3_records h A O sol hf).2 kb b hb
    rw [hn, ← hid, ← h2]
    exact ⟨_, _, .branch3 j3 r (List.mem_of_getElem? h1)⟩

/-- C34, current sensors: the record of a sensor at a component that is not energised exists. -/
theorem current_sensor_off {D : CompType → List (Elem K)} {c : Container (Comp K)} (h : build D = .ok c) (A : Attr) (O : Objects)
    (sol : List (Sol σ)) (t : CompType) (ht : t ∈ [CompType.symCurrentSensor, .asymCurrentSensor]) (k : Nat) (e : Elem K)
    (hk : (D t)[k]? = some e) (i : RV σ ℝ) (hoff : ReportsCurrent A c O sol e.terminal e.object false i) :
    (currentSensorRecords t A c O sol)[k]? = some (some ⟨e.id, false, 0, 0⟩) := by
  rcases current_target h ht (List.mem_of_getElem? hk) with ⟨hn, tb, htb, kb, b, hb, hid⟩ | ⟨j3, hn, kb, b, hb, hid⟩
  · rw [current_branch h A O sol ht hk hn (mem_branchTypes htb) hb hid]
    obtain ⟨r, h1, h2, h3⟩ := reportsCurrent_branch h hn hoff hb hid
    cases hm : O.branch (position D tb kb) with
    | none => rfl
    | some m =>
      simp only [branchResult, hm, bind, Option.bind_eq_some_iff, Option.some.injEq] at h1
      obtain ⟨_, _, h1⟩ := h1
      rw [← h1] at h2
      cases h2
  · rw [current_branch3 h A O sol ht hk hn hb hid]
    rw [hn] at hoff
    obtain ⟨r, h1, h2, h3⟩ := reportsCurrent_branch3 h hoff hb hid
    cases hm : O.branch3 kb with
    | none => rfl
    | some m =>
      simp only [branch3Result, hm, bind, Option.bind_eq_some_iff, Option.some.injEq] at h1
      obtain ⟨_, _, _, _, _, _, h1⟩ := h1
      rw [← h1] at h2
      cases h2

/-- Which voltage the angle of a sensor at a branch is compared with. The sensor is at `b`, whose place in the result is number `position b2` of island 0 or 1; then the code takes the
voltage at the same end of `b2`, whichever branch that is. -/
theorem current_sensor_angle_of_other_node {D : CompType → List (Elem K)} {c : Container (Comp K)} (h : build D = .ok c) (A : Attr) (O : Objects)
    (sol : List (Sol σ)) (hf : Fits O sol) (t : CompType) (ht : t ∈ [CompType.symCurrentSensor, .asymCurrentSensor]) (k : Nat) (e : Elem K)
    (hk : (D t)[k]? = some e) (hn : e.terminal = 0 ∨ e.terminal = 1) (hu : ∀ nd ∈ D .node, 0 < A.uRated nd.id)
    (tb : CompType) (htb : tb ∈ branchTypes) (kb : Nat) (b : Elem K) (hb : (D tb)[kb]? = some b) (hid : b.id = e.object)
    (t2 : CompType) (ht2 : t2 ∈ branchTypes) (k2 : Nat) (b2 : Elem K) (hb2 : (D t2)[k2]? = some b2)
    (g : Nat) (hg : g ≤ 1) (hplace : O.branch (position D tb kb) = some (g, position D t2 k2))
    (r : NodeOut σ) (hr : some r ∈ nodeRecords A c O sol) (hrid : r.id = endNode e.terminal b2) (hren : r.energized = true) :
    ∃ out, (currentSensorRecords t A c O sol)[k]? = some (some out) ∧ out.energized = true ∧
      (A.localAngle e.id = true → ∀ j I θ ic, MeasuresCurrent σ (A.current e.id) j I θ → 0 < I → CalculatesCurrent c O sol e.terminal e.object ic →
        ic j ≠ 0 → IsAngle (out.iAngleResidual j) (θ - (r.uAngle j - (ic j).arg))) := by
  rw [current_branch h A O sol ht hk hn htb hb hid]
  obtain ⟨k1, k2', e1, e2, a1, a2, a3, a4, a5⟩ := branch_nodes h ht2 hb2
  have hnode : ∃ u, nodeVoltage O sol (if e.terminal = 0 then k1 else k2') = some u ∧ ∀ j, r.uAngle j = (u j).arg := by
    rcases hn with hn | hn
    · simp only [hn, if_true]
      simp only [endNode, hn, if_true, ← a2] at hrid
      exact (node_record_voltage h hr a1 hrid).1 hren
    · simp only [hn, one_ne_zero, if_false]
      simp only [endNode, hn, one_ne_zero, if_false, ← a4] at hrid
      exact (node_record_voltage h hr a3 hrid).1 hren
  obtain ⟨u, hu1, hu2⟩ := hnode
  obtain ⟨x, hx1, hx2⟩ := hf.branch _ _ hplace
  obtain ⟨rb, hrb⟩ := at2_some (member := Sol.branch) hx1 hx2
  rw [hplace]
  simp only [topologyIndex_first h hg, a5, hrb, hu1, Option.bind_some]
  refine ⟨_, rfl, rfl, ?_⟩
  intro hloc j I θ ic hmeas hI hc hne
  obtain ⟨m', r', hm', hr', hi⟩ := calculates_branch h hn hc htb hb hid
  rw [hplace] at hm'
  cases hm'
  rw [hrb] at hr'
  cases hr'
  have hur : 0 < A.uRated (endNode e.terminal b) := by
    apply node_rated h hu (List.mem_of_getElem? hb)
    simp only [branchTypes] at htb
    rcases hn with hn | hn <;> rw [hn] <;> fin_cases htb <;> simp [refs, endNode]
  have := ((current_residual (A := A) (x := ⟨t, e⟩) (i := endCurrent e.terminal rb) (u := u) hur hmeas hI.le).2 hI).2 hloc (by rw [← hi]; exact hne)
  rw [hu2, hi]
  exact this

/-- C34, sensors whose angle is relative to the voltage, partial: the record exists and the angle is right if the branch has its own number as place, in island 0 or 1, and its node is
energised. -/
theorem current_sensor_local_partial {D : CompType → List (Elem K)} {c : Container (Comp K)} (h : build D = .ok c) (A : Attr) (O : Objects)
    (sol : List (Sol σ)) (hf : Fits O sol) (t : CompType) (ht : t ∈ [CompType.symCurrentSensor, .asymCurrentSensor]) (k : Nat) (e : Elem K)
    (hk : (D t)[k]? = some e) (hn : e.terminal = 0 ∨ e.terminal = 1) (hu : ∀ nd ∈ D .node, 0 < A.uRated nd.id)
    (tb : CompType) (htb : tb ∈ branchTypes) (kb : Nat) (b : Elem K) (hb : (D tb)[kb]? = some b) (hid : b.id = e.object)
    (g : Nat) (hg : g ≤ 1) (hplace : O.branch (position D tb kb) = some (g, position D tb kb))
    (r : NodeOut σ) (hr : some r ∈ nodeRecords A c O sol) (hrid : r.id = endNode e.terminal b) (hren : r.energized = true) :
    ∃ out, (currentSensorRecords t A c O sol)[k]? = some (some out) ∧ out.energized = true ∧
      (A.localAngle e.id = true → ∀ j I θ ic, MeasuresCurrent σ (A.current e.id) j I θ → 0 < I → CalculatesCurrent c O sol e.terminal e.object ic →
        ic j ≠ 0 → IsAngle (out.iAngleResidual j) (θ - (r.uAngle j - (ic j).arg))) :=
  current_sensor_angle_of_other_node h A O sol hf t ht k e hk hn hu tb htb kb b hb hid tb htb kb b hb g hg hplace r hr hrid hren

/-- C34 is violated at three-winding transformers: if the place of the side in the result is not below the number of branches, the code reads out of the range of the list of branches, for every
sensor and every result. Places of three-winding transformers come after those of the branches of the island, so it always is so if all branches are in the island. -/
theorem current_sensor_branch3_undefined {D : CompType → List (Elem K)} {c : Container (Comp K)} (h : build D = .ok c) (A : Attr) (O : Objects)
    (sol : List (Sol σ)) (t : CompType) (ht : t ∈ [CompType.symCurrentSensor, .asymCurrentSensor]) (k : Nat) (e : Elem K)
    (hk : (D t)[k]? = some e) (j : Fin 3) (hn : e.terminal = 6 + (j : Nat))
    (kb : Nat) (b : Elem K) (hb : (D .threeWindingTransformer)[kb]? = some b) (hid : b.id = e.object)
    (m : Nat × (Fin 3 → Nat)) (hplace : O.branch3 kb = some m) (hge : (branchTypes.map fun t => (D t).length).sum ≤ m.2 j) :
    (currentSensorRecords t A c O sol)[k]? = some none := by
  rw [current_branch3 h A O sol ht hk hn hb hid, hplace]
  simp only
  cases hi : currentSensorTopologyIndex c (m.1, m.2 j) with
  | none => rfl
  | some i =>
    have := topologyIndex_ge hi
    simp only [Option.bind_some]
    rw [registered_out (by rw [branch_total h]; exact hge.trans this)]
    rfl

/-- C34 is violated at open ends: the branch is energised from its other end, its place is its own number, and the node at the end of the sensor is not energised; then the code reads the voltage at
place -1, for every sensor and every result. -/
theorem current_sensor_open_end_undefined {D : CompType → List (Elem K)} {c : Container (Comp K)} (h : build D = .ok c) (A : Attr) (O : Objects)
    (sol : List (Sol σ)) (t : CompType) (ht : t ∈ [CompType.symCurrentSensor, .asymCurrentSensor]) (k : Nat) (e : Elem K)
    (hk : (D t)[k]? = some e) (hn : e.terminal = 0 ∨ e.terminal = 1)
    (tb : CompType) (htb : tb ∈ branchTypes) (kb : Nat) (b : Elem K) (hb : (D tb)[kb]? = some b) (hid : b.id = e.object)
    (g : Nat) (hg : g ≤ 1) (hplace : O.branch (position D tb kb) = some (g, position D tb kb))
    (r : NodeOut σ) (hr : some r ∈ nodeRecords A c O sol) (hrid : r.id = endNode e.terminal b) (hren : r.energized = false) :
    (currentSensorRecords t A c O sol)[k]? = some none := by
  rw [current_branch h A O sol ht hk hn htb hb hid, hplace]
  obtain ⟨k1, k2', e1, e2, a1, a2, a3, a4, a5⟩ := branch_nodes h htb hb
  have hnode : nodeVoltage O sol (if e.terminal = 0 then k1 else k2') = none := by
    rcases hn with hn | hn
    · simp only [hn, if_true]
      simp only [endNode, hn, if_true, ← a2] at hrid
      exact (node_record_voltage h hr a1 hrid).2 hren
    · simp only [hn, one_ne_zero, if_false]
      simp only [endNode, hn, one_ne_zero, if_false, ← a4] at hrid
      exact (node_record_voltage h hr a3 hrid).2 hren
  simp only [topologyIndex_first h hg, a5, hnode, Option.bind_some, Option.bind_none]
  cases at2 sol Sol.branch (g, position D tb kb) <;> rfl

end PGM.Output
