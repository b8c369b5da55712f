import Verif.CalcInput.Props

/-!
# Preparing the input of a short-circuit calculation (C58): theorems
-/

namespace PGM.CalcInput

open PGM.Topology PGM.Container

variable {A : Type} [AddGroup A]

/-! ## Specification -/

/-- The object of a fault is a node: its ID is that of the node `x`, which is the node with number `k`. -/
def AtNode {τ α C : Type} (S : ScComponents A τ α C) (f : Update.Fault ℝ) (k : Nat) (x : α) : Prop :=
  k < S.grid.nNode ∧ ∃ idx, getIdxByIdTyped S.isBase S.node S.components f.faultObject = .ok idx ∧
    getItem S.isBase S.node S.components idx = .ok x ∧ getSeq S.isBase S.node S.components idx = some k

/-- What the solver should get for a fault at a node with rated voltage `u`: the type, the phase or the one that is meant by default, and the admittance in
units of `1 MVA / u²`, which is infinite if the impedance is zero. -/
def FaultValue (f : Update.Fault ℝ) (u : ℝ) (e : FaultParam) : Prop :=
  e.type = f.faultType ∧ (f.faultPhase ≠ -1 → e.phase = f.faultPhase) ∧
    (f.faultPhase = -1 → (f.faultType = 0 → e.phase = 0) ∧ (f.faultType = 1 → e.phase = 1) ∧ (f.faultType = 2 ∨ f.faultType = 3 → e.phase = 6)) ∧
    ∀ r x, f.rF = some r → f.xF = some x → (r = 0 ∧ x = 0 → e.y = none) ∧
      (¬ (r = 0 ∧ x = 0) → ∃ y : ℂ, e.y = some y ∧ y * ((r : ℂ) + x * Complex.I) = (u : ℂ) ^ 2 / 1000000)

/-- The type of a fault is given. -/
def TypeGiven (f : Update.Fault ℝ) : Prop := f.faultType = 0 ∨ f.faultType = 1 ∨ f.faultType = 2 ∨ f.faultType = 3

/-! ## Lemmas -/

theorem fault_value {f : Update.Fault ℝ} (ht : TypeGiven f) (hr : f.rF ≠ none) (hx : f.xF ≠ none) (u : ℝ) :
    ∃ e, faultCalcParam f u = .ok e ∧ FaultValue f u e ∧ isUnused e = false := by
  obtain ⟨r, hr⟩ := Option.ne_none_iff_exists'.mp hr
  obtain ⟨x, hx⟩ := Option.ne_none_iff_exists'.mp hx
  have hmem : f.faultType ∈ [0, 1, 2, 3] := by
    rcases ht with h | h | h | h <;> rw [h] <;> decide
  have hp : ∃ p, Component.faultParam f = some (f.faultType, p) ∧ (f.faultPhase ≠ -1 → p = f.faultPhase) ∧
      (f.faultPhase = -1 → (f.faultType = 0 → p = 0) ∧ (f.faultType = 1 → p = 1) ∧ (f.faultType = 2 ∨ f.faultType = 3 → p = 6)) := by
    unfold Component.faultParam Component.faultType Component.faultPhase
    rw [if_pos hmem]
    by_cases hph : f.faultPhase = -1
    · rw [if_pos hph]
      rcases ht with h | h | h | h <;> rw [h] <;> exact ⟨_, rfl, fun hn => absurd hph hn, fun _ => by decide⟩
    · rw [if_neg hph]
      exact ⟨_, rfl, fun _ => rfl, fun hn => absurd hn hph⟩
  obtain ⟨p, hp1, hp2, hp3⟩ := hp
  have hun : ∀ y, isUnused ⟨f.faultType, p, y⟩ = false := by
    intro y
    unfold isUnused
    rw [decide_eq_false_iff_not]
    rintro ⟨h, _⟩
    simp only at h
    rcases ht with h' | h' | h' | h' <;> rw [h'] at h <;> exact absurd h (by decide)
  unfold faultCalcParam
  simp only [hp1, hr, hx]
  refine ⟨_, rfl, ⟨rfl, hp2, hp3, ?_⟩, hun _⟩
  intro r' x' er ex
  rw [hr] at er
  rw [hx] at ex
  injection er with er
  injection ex with ex
  subst er ex
  refine ⟨fun h0 => if_pos h0, fun h0 => ⟨_, if_neg h0, ?_⟩⟩
  have hne : (r : ℂ) + Complex.I * x ≠ 0 := by
    intro e
    apply h0
    have h1 := congrArg Complex.re e
    have h2 := congrArg Complex.im e
    simp at h1 h2
    exact ⟨h1, h2⟩
  unfold basePower3p
  have : (r : ℂ) + x * Complex.I = r + Complex.I * x := by ring
  rw [this, div_mul_cancel₀ _ hne]
  ring

theorem atNode_seq {τ α C : Type} {S : ScComponents A τ α C} {f : Update.Fault ℝ} {k : Nat} {x : α} (h : AtNode S f k x) :
    (∃ idx, S.components.map f.faultObject = some idx ∧ getSeq S.isBase S.node S.components idx = some k) ∧
      getItemById S.isBase S.node S.components f.faultObject = .ok x := by
  obtain ⟨_, idx, h1, h2, h3⟩ := h
  refine ⟨⟨idx, ?_, h3⟩, ?_⟩
  · unfold getIdxByIdTyped getIdxById at h1
    cases hm : S.components.map f.faultObject with
    | none =>
      rw [hm] at h1
      cases h1
    | some idx' =>
      rw [hm] at h1
      have h1 : (if S.isBase S.node idx'.group then pure idx' else (.error (.idWrongType f.faultObject) : Except Err Idx2D)) = .ok idx := h1
      split at h1
      · injection h1 with h1
        rw [h1]
      · cases h1
  · unfold getItemById
    rw [h1]
    exact h2

theorem locate_ok {τ α C : Type} {S : ScComponents A τ α C} (s : State A) {f : Update.Fault ℝ} {k : Nat} {x : α} (h : f.status = true → AtNode S f k x) :
    locate S s f = .ok (if f.status then s.node k else none) := by
  unfold locate
  by_cases hf : f.status = true
  · obtain ⟨⟨idx, h1, h2⟩, _⟩ := atNode_seq (h hf)
    simp only [if_pos hf, h1, h2]
    rw [if_pos]
    unfold Grid.nTotal
    have := (h hf).1
    omega
  · rw [if_neg hf, if_neg hf]

theorem mapM_ok {α β : Type} (f : α → Except Stop β) (l : List α) (g : Nat → β) (h : ∀ (i : Nat) x, l[i]? = some x → f x = .ok (g i)) :
    ∃ r, l.mapM f = .ok r ∧ ∀ i, i < l.length → r[i]? = some (g i) := by
  induction l generalizing g with
  | nil => exact ⟨[], rfl, fun i hi => absurd hi (by simp)⟩
  | cons a l ih =>
    obtain ⟨r, h1, h2⟩ := ih (fun i => g (i + 1)) fun i x e => h (i + 1) x (by simpa using e)
    refine ⟨g 0 :: r, ?_, fun i hi => ?_⟩
    · rw [List.mapM_cons, h 0 a rfl, h1]
      rfl
    · cases i with
      | zero => rfl
      | succ i =>
        rw [List.getElem?_cons_succ]
        exact h2 i (by simpa using hi)

theorem takeWhile_eq_take {P : Type} (p : P → Bool) (l : List P) (m : Nat) (h1 : ∀ (i : Nat) x, i < m → l[i]? = some x → p x = true)
    (h2 : ∀ (i : Nat) x, m ≤ i → l[i]? = some x → p x = false) : l.takeWhile p = l.take m := by
  induction l generalizing m with
  | nil => simp
  | cons a l ih =>
    cases m with
    | zero =>
      rw [List.take_zero, List.takeWhile_cons, if_neg]
      rw [h2 0 a (le_refl _) rfl]
      exact Bool.false_ne_true
    | succ m =>
      rw [List.take_succ_cons, List.takeWhile_cons, if_pos (h1 0 a (by omega) rfl)]
      congr 1
      exact ih m (fun i x hi e => h1 (i + 1) x (by omega) (by simpa using e)) fun i x hi e => h2 (i + 1) x (by omega) (by simpa using e)

/-- Filling ends with an error if one of the parameters is that error and the others are values. -/
theorem prepare_error {P : Type} {len : Nat → Nat} {nI : Nat} (d : P) (param : Nat → Except Stop P) (coup : Nat → Option (Nat × Nat)) (n : Nat) (e : Stop)
    (hin : ∀ i, i < n → ∀ g p, coup i = some (g, p) → g < nI ∧ p < len g)
    (hpar : ∀ i, i < n → coup i ≠ none → param i = .error e ∨ ∃ x, param i = .ok x) {j : Nat} (hj : j < n) (hc : coup j ≠ none) (hje : param j = .error e) :
    prepareInput param coup (fun _ => true) n (resized d len nI) = .error e := by
  have key : ∀ m, m ≤ n → prepareInput param coup (fun _ => true) m (resized d len nI) = .error e ∨
      (m ≤ j ∧ ∃ v, prepareInput param coup (fun _ => true) m (resized d len nI) = .ok v ∧ Shape len nI v) := by
    intro m
    unfold prepareInput
    induction m with
    | zero => exact fun _ => Or.inr ⟨by omega, _, rfl, resized_shape d len nI⟩
    | succ m ih =>
      intro hm
      rw [List.range_succ, List.foldlM_append]
      rcases ih (by omega) with h | ⟨hmj, v, h, hs⟩
      · left
        rw [h]
        rfl
      · rw [h]
        have hstep : (Except.ok v >>= fun w => List.foldlM (prepareStep param coup fun _ => true) w [m]) = prepareStep param coup (fun _ => true) v m := by
          show List.foldlM (prepareStep param coup fun _ => true) v [m] = _
          rw [List.foldlM_cons]
          simp only [List.foldlM_nil, bind_pure]
        rw [hstep]
        unfold prepareStep
        rw [if_pos rfl]
        cases hcm : coup m with
        | none =>
          right
          refine ⟨?_, v, rfl, hs⟩
          rcases Nat.lt_or_ge m j with h | h
          · exact h
          · exfalso
            have : m = j := by omega
            subst this
            exact hc hcm
        | some q =>
          obtain ⟨g, p⟩ := q
          rcases hpar m (by omega) (by rw [hcm]; exact Option.some_ne_none _) with he | ⟨x, hx⟩
          · left
            dsimp only
            rw [he]
            rfl
          · right
            obtain ⟨hg, hp⟩ := hin m (by omega) g p hcm
            obtain ⟨v', k1, k2, _⟩ := put_ok hs hg hp x
            refine ⟨?_, v', ?_, k2⟩
            · rcases Nat.lt_or_ge m j with h | h
              · exact h
              · exfalso
                have : m = j := by omega
                subst this
                rw [hx] at hje
                cases hje
            · dsimp only
              rw [hx]
              exact k1
  rcases key n (le_refl _) with h | ⟨h, _⟩
  · exact h
  · omega

/-- The parts that all theorems about faults share. -/
theorem faults_coupled {τ α C : Type} (criterion : Nat → Nat → Bool) (S : ScComponents A τ α C) (hv : S.grid.Valid) {s : State A} {c : Coupled}
    (hb : build S.grid = some (s, c)) (node : Nat → Nat) (item : Nat → α)
    (hn : ∀ (i : Nat) f, S.fault[i]? = some f → f.status = true → AtNode S f (node i) (item i)) :
    ∃ located faultBus faultCoup, S.fault.mapM (locate S s) = .ok located ∧
      coupleObjects criterion (fun i => located[i]?.join) (fun _ => true) S.fault.length s.islands.length
        (fun g => (s.islands[g]?.map (·.phaseShift.length)).getD 0) (fun _ => none) = some (faultBus, faultCoup) ∧
      Coupling S.fault.length s.islands.length (fun _ => true) (fun i => S.fault[i]?.bind fun f => if f.status then s.node (node i) else none) faultCoup
        faultBus := by
  obtain ⟨located, h1, h2⟩ := mapM_ok (locate S s) S.fault (fun i => S.fault[i]?.bind fun f => if f.status then s.node (node i) else none) (fun i f e => by
    rw [locate_ok s (hn i f e), e]
    rfl)
  have hout : ∀ i, S.fault.length ≤ i → located[i]? = none := by
    intro i hi
    have hlen : located.length = S.fault.length := by
      clear h2 hn
      generalize S.fault = l at h1 ⊢
      clear hi i
      induction l generalizing located with
      | nil => cases h1; rfl
      | cons a l ih =>
        rw [List.mapM_cons] at h1
        cases ha : locate S s a with
        | error e => rw [ha] at h1; cases h1
        | ok b =>
          cases hl : l.mapM (locate S s) with
          | error e => rw [ha, hl] at h1; cases h1
          | ok r =>
            rw [ha, hl] at h1
            cases h1
            rw [List.length_cons, List.length_cons, ih r hl]
    rw [List.getElem?_eq_none]
    omega
  have hfind : ∀ i, located[i]?.join = S.fault[i]?.bind fun f => if f.status then s.node (node i) else none := by
    intro i
    rcases Nat.lt_or_ge i S.fault.length with hi | hi
    · rw [h2 i hi]
      rfl
    · rw [hout i hi, List.getElem?_eq_none hi]
      rfl
  obtain ⟨faultBus, faultCoup, h3, h4, _⟩ := object_coupling criterion (fun i => located[i]?.join) (fun _ => true) S.fault.length s.islands.length
    (fun g => (s.islands[g]?.map (·.phaseShift.length)).getD 0) (fun i g o hf => by
      rw [hfind] at hf
      cases hx : S.fault[i]? with
      | none => rw [hx] at hf; cases hf
      | some f =>
        rw [hx] at hf
        have hf : (if f.status then s.node (node i) else none) = some (g, o) := hf
        split at hf
        · exact ((numbering hv hb).1 _ _ _ hf).2
        · cases hf)
  refine ⟨located, faultBus, faultCoup, h1, h3, ?_⟩
  have : (fun i => S.fault[i]?.bind fun f => if f.status then s.node (node i) else none) = fun i => if true = true then located[i]?.join else none := by
    funext i
    rw [if_pos rfl, hfind]
  rw [this]
  exact h4

/-- **C58, short circuit.** Let every active fault be at a node, and have a type, a resistance and a reactance if that node is energised. Then the preparation
succeeds; exactly the active faults at energised nodes reach the solver, at the island and bus of their node, with their parameters; exactly the connected
sources at energised nodes do; and nothing else is in the input. Missing for the full property: that the object of an active fault is a node, which is not
enforced for updates (`fault_object_unchecked`). -/
theorem short_circuit_input_partial {τ α C : Type} [Inhabited C] (criterion : Nat → Nat → Bool) (S : ScComponents A τ α C) (hv : S.grid.Valid)
    (hs : S.source.length = S.grid.sources.length) (node : Nat → Nat) (item : Nat → α)
    (hn : ∀ (i : Nat) f, S.fault[i]? = some f → f.status = true → AtNode S f (node i) (item i))
    (ht : ∀ (i : Nat) f, S.fault[i]? = some f → f.status = true → Energised S.grid (node i) → TypeGiven f ∧ f.rF ≠ none ∧ f.xF ≠ none) :
    ∃ s c I sourcePlace value, build S.grid = some (s, c) ∧ prepareShortCircuit criterion S = .ok I ∧ (∀ x, s.node x ≠ none ↔ Energised S.grid x) ∧
      (∀ (i : Nat) f e, S.fault[i]? = some f → value i = some e → FaultValue f (S.uRated (item i)) e) ∧
      Delivers S.fault.length (fun i => S.fault[i]?.bind fun f => if f.status then s.node (node i) else none) value I.faultPlace I.faultBus I.fault ∧
      Delivers S.source.length (fun i => S.grid.sources[i]?.bind fun x => if x.2 then s.node x.1 else none) (fun i => S.source[i]?) sourcePlace
        I.sourceBus I.source ∧
      I.fault.length = s.islands.length ∧ I.source.length = s.islands.length := by
  obtain ⟨s, c, hb⟩ := build_total hv
  obtain ⟨sourceBus, sourceCoup, hso, -, -⟩ := appliance_coupling hv hb criterion (S.grid.sources.map (·.1)) fun i => S.grid.sources[i]?.any (·.2)
  obtain ⟨vs, a1, a2, a3⟩ := appliance_delivers hv hb criterion S.grid.sources (·.1) (fun i => S.grid.sources[i]?.any (·.2)) hso S.source hs id (default : C)
  obtain ⟨located, faultBus, faultCoup, h1, h2, h3⟩ := faults_coupled criterion S hv hb node item hn
  have hpar : ∀ i, i < S.fault.length → (S.fault[i]?.bind fun f => if f.status then s.node (node i) else none) ≠ none →
      ∃ f e, S.fault[i]? = some f ∧ faultAt S i = .ok e ∧ FaultValue f (S.uRated (item i)) e ∧ isUnused e = false := by
    intro i hi hw
    have e := List.getElem?_eq_getElem hi
    rw [e] at hw
    have hw : (if S.fault[i].status then s.node (node i) else none) ≠ none := hw
    by_cases hf : S.fault[i].status = true
    · rw [if_pos hf] at hw
      obtain ⟨h4, h5, h6⟩ := ht i _ e hf ((energised_iff hv hb _).mp hw)
      obtain ⟨p, k1, k2, k3⟩ := fault_value h4 h5 h6 (S.uRated (item i))
      refine ⟨_, p, e, ?_, k2, k3⟩
      unfold faultAt
      simp only [e, (atNode_seq (hn i _ e hf)).2]
      exact k1
    · rw [if_neg hf] at hw
      exact absurd rfl hw
  obtain ⟨v, b1, b2, b3, b4⟩ := prepare_delivers h3 unusedFault (faultAt S) (fun _ => S.fault.length) (fun g hg => h3.length_le hg)
    fun i hi _ hw => by
      obtain ⟨_, e, _, h, _⟩ := hpar i hi hw
      exact ⟨e, h⟩
  have hused : ∀ g p x, g < s.islands.length → p < (faultBus g).length → entry v g p = some x → isUnused x = false := by
    intro g p x hg hp hx
    obtain ⟨i, hi, _, hc, _⟩ := h3.place g p hg hp
    cases hw : S.fault[i]?.bind fun f => if f.status then s.node (node i) else none with
    | none =>
      rw [h3.none_ i hi rfl hw] at hc
      cases hc
    | some m =>
      obtain ⟨g', o⟩ := m
      obtain ⟨p', y, k1, _, k3, k4⟩ := b3 i hi rfl g' o hw
      rw [hc] at k1
      simp only [Option.some.injEq, Prod.mk.injEq] at k1
      obtain ⟨rfl, rfl⟩ := k1
      rw [hx] at k4
      injection k4 with k4
      subst k4
      obtain ⟨_, e, _, q2, _, q4⟩ := hpar i hi (by rw [hw]; exact Option.some_ne_none _)
      rw [k3] at q2
      injection q2 with q2
      rw [q2]
      exact q4
  have htrunc : ∀ (g : Nat) l, v[g]? = some l → (l.takeWhile fun f => !isUnused f) = l.take (faultBus g).length := by
    intro g l hl
    have hg : g < s.islands.length := by
      have := (List.getElem?_eq_some_iff.mp hl).1
      rwa [b2.1] at this
    refine takeWhile_eq_take _ l _ (fun i x hi hx => ?_) fun i x hi hx => ?_
    · rw [hused g i x hg hi (by unfold entry; rw [hl]; exact hx)]
      rfl
    · have hlen : l.length = S.fault.length := b2.2 g l hl
      have := b4 g i hg hi (by rw [← hlen]; exact (List.getElem?_eq_some_iff.mp hx).1)
      unfold entry at this
      rw [hl] at this
      have this : l[i]? = some unusedFault := this
      rw [hx] at this
      injection this with this
      rw [this]
      rfl
  have hentry : ∀ g p, entry (v.map fun l => l.takeWhile fun f => !isUnused f) g p = if p < (faultBus g).length then entry v g p else none := by
    intro g p
    unfold entry
    rw [List.getElem?_map]
    cases hl : v[g]? with
    | none => simp
    | some l =>
      show (l.takeWhile fun f => !isUnused f)[p]? = if p < (faultBus g).length then l[p]? else none
      rw [htrunc g l hl, List.getElem?_take]
  refine ⟨s, c, ⟨sourceBus, faultBus, faultCoup, v.map fun l => l.takeWhile fun f => !isUnused f, vs⟩, sourceCoup,
    fun i => if (S.fault[i]?.bind fun f => if f.status then s.node (node i) else none) = none then none else (faultAt S i).toOption, hb, ?_,
    energised_iff hv hb, ?_, ⟨fun i hi g o hw => ?_, fun i hi hw => h3.none_ i hi rfl hw, fun g p x hx => ?_, fun g l hl => ?_⟩, ?_, ?_, a2⟩
  · unfold prepareShortCircuit
    simp only [hb, hso, h1, h2, b1, a1, lift_some, bind_ok]
  · intro i f e hf hval
    dsimp only at hval
    split at hval
    · cases hval
    · rename_i hw
      obtain ⟨f', e', q1, q2, q3, _⟩ := hpar i (List.getElem?_eq_some_iff.mp hf).1 hw
      rw [hf] at q1
      injection q1 with q1
      subst q1
      rw [q2] at hval
      injection hval with hval
      rw [← hval]
      exact q3
  · obtain ⟨p, x, k1, k2, k3, k4⟩ := b3 i hi rfl g o hw
    refine ⟨p, x, k1, k2, ?_, ?_⟩
    · rw [if_neg (by rw [hw]; exact Option.some_ne_none _), k3]
      rfl
    · rw [hentry, if_pos (List.getElem?_eq_some_iff.mp k2).1]
      exact k4
  · rw [hentry] at hx
    split at hx
    · rename_i hp
      have hg := ((shape_entry b2).mp ⟨x, hx⟩).1
      obtain ⟨i, k1, _, k3, k4⟩ := h3.place g p hg hp
      exact ⟨i, k1, k3, fun i' hi' hc => k4 i' hi' rfl hc⟩
    · cases hx
  · rw [List.getElem?_map] at hl
    cases hl' : v[g]? with
    | none => rw [hl'] at hl; cases hl
    | some l' =>
      rw [hl'] at hl
      injection hl with hl
      subst hl
      show (l'.takeWhile fun f => !isUnused f).length = (faultBus g).length
      rw [htrunc g l' hl', List.length_take, b2.2 g l' hl']
      refine min_eq_left (h3.length_le ?_)
      have := (List.getElem?_eq_some_iff.mp hl').1
      rwa [b2.1] at this
  · rw [hs]
    refine a3.congr (fun i hi => ?_) (fun i _ => by simp) fun _ _ => rfl
    rw [List.getElem?_eq_getElem hi]
    rfl
  · rw [List.length_map, b2.1]

/-- **C58, short circuit without a fault type.** If an active fault at an energised node has no type, and otherwise as above, the calculation is refused with
the error for an invalid type. -/
theorem short_circuit_type_required {τ α C : Type} [Inhabited C] (criterion : Nat → Nat → Bool) (S : ScComponents A τ α C) (hv : S.grid.Valid)
    (node : Nat → Nat) (item : Nat → α)
    (hn : ∀ (i : Nat) f, S.fault[i]? = some f → f.status = true → AtNode S f (node i) (item i) ∧ f.rF ≠ none ∧ f.xF ≠ none)
    {j : Nat} {f : Update.Fault ℝ} (hj : S.fault[j]? = some f) (hf : f.status = true) (he : Energised S.grid (node j)) (hty : ¬ TypeGiven f) :
    prepareShortCircuit criterion S = .error .invalidShortCircuitType := by
  obtain ⟨s, c, hb⟩ := build_total hv
  obtain ⟨sourceBus, sourceCoup, hso, -, -⟩ := appliance_coupling hv hb criterion (S.grid.sources.map (·.1)) fun i => S.grid.sources[i]?.any (·.2)
  obtain ⟨located, faultBus, faultCoup, h1, h2, h3⟩ := faults_coupled criterion S hv hb node item fun i f e hf => (hn i f e hf).1
  have hbad : ∀ (f : Update.Fault ℝ) u, ¬ TypeGiven f → faultCalcParam f u = .error .invalidShortCircuitType := by
    intro f u h
    have : Component.faultParam f = none := by
      unfold Component.faultParam Component.faultType
      rw [if_neg]
      intro hm
      apply h
      simp at hm
      exact hm
    unfold faultCalcParam
    rw [this]
  have hat : ∀ i f, S.fault[i]? = some f → f.status = true → faultAt S i = faultCalcParam f (S.uRated (item i)) := by
    intro i f e hf
    unfold faultAt
    simp only [e, (atNode_seq (hn i _ e hf).1).2]
  have hcj : faultCoup j ≠ none := by
    have hw := (energised_iff hv hb _).mpr he
    obtain ⟨⟨g, o⟩, hw⟩ := Option.ne_none_iff_exists'.mp hw
    obtain ⟨_, p, h, _⟩ := h3.some_ j (List.getElem?_eq_some_iff.mp hj).1 rfl g o (by rw [hj]; simp [hf, hw])
    rw [h]
    exact Option.some_ne_none _
  have herr := prepare_error (len := fun _ => S.fault.length) (nI := s.islands.length) unusedFault (faultAt S) faultCoup S.fault.length .invalidShortCircuitType
    (fun i hi g p hc => ⟨(h3.range hi rfl hc).1, lt_of_lt_of_le (h3.range hi rfl hc).2 (h3.length_le (h3.range hi rfl hc).1)⟩)
    (fun i hi hc => by
      have e := List.getElem?_eq_getElem hi
      by_cases hst : S.fault[i].status = true
      · rw [hat i _ e hst]
        by_cases hty : TypeGiven S.fault[i]
        · obtain ⟨_, h5, h6⟩ := hn i _ e hst
          obtain ⟨p, k, _⟩ := fault_value hty h5 h6 (S.uRated (item i))
          exact Or.inr ⟨p, k⟩
        · exact Or.inl (hbad _ _ hty)
      · exfalso
        refine hc (h3.none_ i hi rfl ?_)
        rw [e]
        simp [hst]) (List.getElem?_eq_some_iff.mp hj).1 hcj (by rw [hat j f hj hf, hbad _ _ hty])
  unfold prepareShortCircuit
  simp only [hb, hso, h1, h2, herr, lift_some, bind_ok]
  rfl

/-! ## Faults at something that is no node -/

/-- A grid with one node and a source. -/
def exGrid : Grid ℤ := ⟨1, [], [], [(0, true)]⟩

/-- Its components, with the ID 1 for the node and 2 for the source, and a fault. Type 0 of the container has nodes, and type 1 sources. -/
def exSc (f : Update.Fault ℝ) : ScComponents ℤ Unit ℝ ℝ :=
  ⟨exGrid, ⟨[[10000], [0]], fun id => if id = 1 then some ⟨0, 0⟩ else if id = 2 then some ⟨1, 0⟩ else none⟩, fun _ g => decide (g = 0), (), id, [f], [1]⟩

/-- An active three-phase fault at the node. -/
def exFault : Update.Fault ℝ := ⟨⟨9⟩, true, 0, -1, 1, some 0, some 2⟩

theorem exGrid_valid : exGrid.Valid := ⟨by simp [exGrid], by simp [exGrid], by simp [exGrid]⟩

theorem exFault_node : AtNode (exSc exFault) exFault 0 10000 := ⟨by decide, ⟨0, 0⟩, rfl, rfl, rfl⟩

/-- **C58 fails**: an update may set the object of an active fault to an ID that does not exist, or that is not the ID of a node, without an error, and the
next short-circuit calculation is undefined: only an assertion checks that the ID exists, and nothing checks the type. -/
theorem fault_object_unchecked (criterion : Nat → Nat → Bool) (object : Int) (h : object = 2 ∨ object = 99) :
    let u : Update.FaultUpdate ℝ := ⟨9, Update.naIntS, Update.naIntS, Update.naIntS, object, none, none⟩
    (exFault.update u).2.2 = false ∧ prepareShortCircuit criterion (exSc (exFault.update u).1) = .error .undefined := by
  intro u
  refine ⟨rfl, ?_⟩
  obtain ⟨s, c, hb⟩ := build_total exGrid_valid
  have hb : build (exSc (exFault.update u).1).grid = some (s, c) := hb
  obtain ⟨sourceBus, sourceCoup, hso, -, -⟩ := appliance_coupling (G := (exSc (exFault.update u).1).grid) exGrid_valid hb criterion
    ((exSc (exFault.update u).1).grid.sources.map (·.1)) fun i => (exSc (exFault.update u).1).grid.sources[i]?.any (·.2)
  have hloc : (exSc (exFault.update u).1).fault.mapM (locate (exSc (exFault.update u).1) s) = .error .undefined := by
    rcases h with h | h <;> subst h <;> rfl
  unfold prepareShortCircuit
  simp only [hb, hso, hloc, lift_some, bind_ok]
  rfl

/-! ## Examples -/

/-- The fault at the node meets the hypotheses of `short_circuit_input_partial`. -/
example : TypeGiven exFault ∧ exFault.rF ≠ none ∧ exFault.xF ≠ none ∧ exFault.status = true ∧ Energised exGrid 0 := by
  refine ⟨Or.inl rfl, by simp [exFault], by simp [exFault], rfl, ?_⟩
  obtain ⟨s, c, hb⟩ := build_total exGrid_valid
  exact (energised_iff exGrid_valid hb 0).mp (by
    have : (build exGrid).map (fun x => x.1.node 0) = some (some (0, 0)) := by decide +kernel
    rw [hb] at this
    injection this with this
    have this : s.node 0 = some (0, 0) := this
    rw [this]
    exact Option.some_ne_none _)

example (criterion : Nat → Nat → Bool) : ∃ I, prepareShortCircuit criterion (exSc exFault) = .ok I := by
  obtain ⟨s, c, I, _, _, _, h, _⟩ := short_circuit_input_partial criterion (exSc exFault) exGrid_valid rfl (fun _ => 0) (fun _ => 10000)
    (fun i f e _ => by
      cases i with
      | zero => cases e; exact exFault_node
      | succ i => cases e)
    (fun i f e _ _ => by
      cases i with
      | zero => cases e; exact ⟨Or.inl rfl, by simp [exFault], by simp [exFault]⟩
      | succ i => cases e)
  exact ⟨I, h⟩

/-- Two nodes of which the second is not energised, with two loads, a source and a voltage regulator of the first load: the load at the second node is not
in the input, the first load and its regulator are. -/
example : (preparePowerFlow (fun _ _ => true)
      (⟨⟨2, [], [], [(0, true)]⟩, [7], [(1, 5, true), (0, 3, true)], 0, [(1, 4)]⟩ : PfComponents ℤ Nat Nat Nat)).toOption.map
      (fun I => (I.source, I.injection, I.status, I.regulator, I.loadBus 0, I.regulatorLoad 0)) = some ([[7]], [[3]], [[true]], [[4]], [0], [0]) := by with_unfolding_all rfl

/-- A grid with two nodes, with a voltage sensor at the energised node, one at the other, and power sensors at a load and at the node. -/
example : (prepareEstimation (fun _ _ => true)
      (⟨⟨2, [], [], [(0, true)]⟩, [], [(0, true)], [(1, 5), (0, 3)], [(.node, 0, 8), (.load, 0, 6), (.node, 1, 9)], []⟩ : SeComponents ℤ Nat Nat Nat)).toOption.map
      (fun J => (J.loadStatus, J.voltage, J.power .loadGen, J.power .bus, J.current .branchFrom)) = some ([[true]], [[3]], [[6]], [[8]], [[]]) := by with_unfolding_all rfl

end PGM.CalcInput
