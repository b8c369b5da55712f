import Mathlib.Data.List.Pairwise
import Mathlib.Tactic.Common

/-!
# Validation of voltage regulators before a calculation (C41)

`P/calculation_preparation.hpp` lines 158-232, called at the end of `prepare_solvers` (line 277) and so before the
solver is called in `calculate_` (`P/main_model_impl.hpp` lines 288-315).

Simplifications: the container is given by the list of voltage regulators, the load/generators as a function from ID to
(node, type), the list of sources and the number of tap regulators. `double` reference voltages are `Option K` with `none`
for NaN; comparison with NaN is `!=`, as in IEEE arithmetic.
-/

namespace PGM.Prepare

variable {K : Type} [DecidableEq K]

/-- The part of a `VoltageRegulator` that is read: `id()`, `status()`, `regulated_object()`, `u_ref()`. -/
structure VoltageRegulator (K : Type) where
  id : Int
  status : Bool
  object : Int
  uRef : Option K

/-- The part of a `Source` that is read. -/
structure Source where
  node : Int
  status : Bool

/-- The part of the state that is read. `loadGen id` is the node and whether the type is `const_pq`. -/
structure State (K : Type) where
  regulators : List (VoltageRegulator K)
  nTapRegulators : Nat
  loadGen : Int → Option (Int × Bool)
  sources : List Source

/-- The exceptions; `lookup` stands for the exception of `get_component` for an object that does not exist. -/
inductive Err where
  | lookup (id : Int)
  | unsupportedRegulatorCombination
  | conflictingURef (first second : Int)
  | unsupportedLoadGenType (regulator : Int)
  | unsupportedSourceCombination (node : Int)
deriving DecidableEq, Repr

/-- `operator!=` on two reference voltages. -/
def differ (a b : Option K) : Bool :=
  match a, b with
  | some x, some y => x ≠ y
  | _, _ => true

/-- `std::unordered_map<ID, ReferenceVoltageRegulator>`: node, ID of the first regulator, its reference voltage. -/
abbrev Visited (K : Type) := List (Int × Int × Option K)

/-- Body of the loop of `check_u_ref_per_node`, lines 167-186. -/
def uRefStep (s : State K) (visited : Visited K) (r : VoltageRegulator K) : Except Err (Visited K) :=
  if !r.status then .ok visited
  else
    match s.loadGen r.object with
    | none => .error (.lookup r.object)
    | some (node, _) =>
      match visited.find? (fun v => v.1 == node) with
      | some (_, first, u) => if differ u r.uRef then .error (.conflictingURef first r.id) else .ok visited
      | none => .ok (visited ++ [(node, r.id, r.uRef)])

/-- `check_u_ref_per_node`, lines 163-187. -/
def checkURef (s : State K) : Except Err (Visited K) := s.regulators.foldlM (uRefStep s) []

/-- Body of the loop of `check_load_gen_typefor_voltage_regulator`, lines 191-201. -/
def typeStep (s : State K) (_ : Unit) (r : VoltageRegulator K) : Except Err Unit :=
  if !r.status then .ok ()
  else
    match s.loadGen r.object with
    | none => .error (.lookup r.object)
    | some (_, constPq) => if !constPq then .error (.unsupportedLoadGenType r.id) else .ok ()

/-- `check_load_gen_typefor_voltage_regulator`, lines 189-202. -/
def checkType (s : State K) : Except Err Unit := s.regulators.foldlM (typeStep s) ()

/-- Body of the loop of `check_sources_and_voltage_regulators`, lines 208-214. -/
def sourceStep (visited : Visited K) (_ : Unit) (src : Source) : Except Err Unit :=
  if src.status && visited.any (fun v => v.1 == src.node) then .error (.unsupportedSourceCombination src.node)
  else .ok ()

/-- `check_sources_and_voltage_regulators`, lines 204-215. -/
def checkSources (s : State K) (visited : Visited K) : Except Err Unit := s.sources.foldlM (sourceStep visited) ()

/-- `check_state_validity`, lines 218-232. -/
def checkStateValidity (s : State K) : Except Err Unit :=
  if s.regulators.length > 0 then
    if s.nTapRegulators > 0 then .error .unsupportedRegulatorCombination
    else do
      let visited ← checkURef s
      checkType s
      checkSources s visited
  else .ok ()

/-! ## Specification -/

/-- The enabled regulator `r` controls node `n`. -/
def Controls (s : State K) (r : VoltageRegulator K) (n : Int) : Prop :=
  r ∈ s.regulators ∧ r.status = true ∧ ∃ pq, s.loadGen r.object = some (n, pq)

/-- Any two enabled regulators that are listed one after the other and control the same node have the same reference
voltage, which is a number. -/
def Agree (s : State K) : Prop :=
  s.regulators.Pairwise fun r r' => ∀ n, Controls s r n → Controls s r' n → ∃ u, r.uRef = some u ∧ r'.uRef = some u

/-- Enabled regulators regulate only constant-power load/generators. -/
def ConstantPower (s : State K) : Prop :=
  ∀ r ∈ s.regulators, r.status = true → ∃ n, s.loadGen r.object = some (n, true)

/-- No active source is at a node with an enabled regulator. -/
def NoSource (s : State K) : Prop :=
  ∀ r n, Controls s r n → ∀ src ∈ s.sources, src.status = true → src.node ≠ n

/-- The regulated objects exist and are load/generators. This is what model construction guarantees (C42). -/
def Resolved (s : State K) : Prop := ∀ r ∈ s.regulators, ∃ x, s.loadGen r.object = some x

/-! ## Lemmas -/

theorem differ_false {a b : Option K} : differ a b = false ↔ ∃ u, a = some u ∧ b = some u := by
  cases a with
  | none => simp [differ]
  | some x =>
    cases b with
    | none => simp [differ]
    | some y =>
      simp only [differ, ne_eq, decide_not, Bool.not_eq_false', decide_eq_true_eq, Option.some.injEq]
      constructor
      · rintro rfl; exact ⟨x, rfl, rfl⟩
      · rintro ⟨u, rfl, rfl⟩; rfl

theorem inj_keys {α β : Type} {f : α → β} {l : List α} (h : (l.map f).Nodup) {a b : α} (ha : a ∈ l) (hb : b ∈ l)
    (hab : f a = f b) : a = b := by
  induction l with
  | nil => cases ha
  | cons x l ih =>
    rw [List.map_cons, List.nodup_cons] at h
    rcases List.mem_cons.mp ha with rfl | ha' <;> rcases List.mem_cons.mp hb with rfl | hb'
    · rfl
    · exact absurd (List.mem_map.mpr ⟨b, hb', hab.symm⟩) h.1
    · exact absurd (List.mem_map.mpr ⟨a, ha', hab⟩) h.1
    · exact ih h.2 ha' hb'

/-- What is recorded after the regulators `l`. -/
structure Recorded (s : State K) (l : List (VoltageRegulator K)) (v : Visited K) : Prop where
  sound : ∀ e ∈ v, ∃ r ∈ l, r.status = true ∧ (∃ pq, s.loadGen r.object = some (e.1, pq)) ∧ r.id = e.2.1 ∧ r.uRef = e.2.2
  complete : ∀ r ∈ l, r.status = true → ∀ n pq, s.loadGen r.object = some (n, pq) →
    ∃ e ∈ v, e.1 = n ∧ (e.2.2 = r.uRef ∨ differ e.2.2 r.uRef = false)
  keys : (v.map (·.1)).Nodup

/-- Pairwise agreement inside a list. -/
def AgreeIn (s : State K) (l : List (VoltageRegulator K)) : Prop :=
  l.Pairwise fun r r' => r.status = true → r'.status = true → ∀ n pq pq', s.loadGen r.object = some (n, pq) →
    s.loadGen r'.object = some (n, pq') → ∃ u, r.uRef = some u ∧ r'.uRef = some u

theorem uRef_loop (s : State K) (hres : Resolved s) : ∀ (rest done : List (VoltageRegulator K)) (v : Visited K),
    done ++ rest = s.regulators → Recorded s done v → AgreeIn s done →
    match rest.foldlM (uRefStep s) v with
    | .ok v' => Recorded s s.regulators v' ∧ AgreeIn s s.regulators
    | .error e => ¬ AgreeIn s s.regulators ∧ ∃ r ∈ s.regulators, ∃ r' ∈ s.regulators, ∃ n, Controls s r n ∧
        Controls s r' n ∧ e = .conflictingURef r.id r'.id ∧ ¬ ∃ u, r.uRef = some u ∧ r'.uRef = some u := by
  intro rest
  induction rest with
  | nil =>
    intro done v hd hrec hag
    simp only [List.append_nil] at hd
    subst hd
    exact ⟨hrec, hag⟩
  | cons r rest ih =>
    intro done v hd hrec hag
    have hmem : r ∈ s.regulators := by rw [← hd]; simp
    rw [List.foldlM_cons]
    have hd' : (done ++ [r]) ++ rest = s.regulators := by rw [← hd]; simp
    cases hs : r.status with
    | false =>
      rw [show uRefStep s v r = .ok v by simp [uRefStep, hs]]
      refine ih (done ++ [r]) v hd' ⟨?_, ?_, hrec.keys⟩ ?_
      · intro e he
        obtain ⟨r', h1, h2⟩ := hrec.sound e he
        exact ⟨r', by simp [h1], h2⟩
      · intro r' hr' hst
        rcases List.mem_append.mp hr' with h | h
        · exact hrec.complete r' h hst
        · simp only [List.mem_singleton] at h; subst h; rw [hs] at hst; cases hst
      · unfold AgreeIn
        rw [List.pairwise_append]
        refine ⟨hag, by simp, ?_⟩
        intro a _ b hb _ hst
        simp only [List.mem_singleton] at hb; subst hb; rw [hs] at hst; cases hst
    | true =>
      obtain ⟨⟨node, pq⟩, hlg⟩ := hres r hmem
      cases hf : v.find? (fun e => e.1 == node) with
      | none =>
        have hno : ∀ e ∈ v, e.1 ≠ node := by
          intro e he
          have := List.find?_eq_none.mp hf e he
          simpa using this
        rw [show uRefStep s v r = .ok (v ++ [(node, r.id, r.uRef)]) by simp [uRefStep, hs, hlg, hf]]
        refine ih (done ++ [r]) (v ++ [(node, r.id, r.uRef)]) hd' ⟨?_, ?_, ?_⟩ ?_
        · intro e he
          rcases List.mem_append.mp he with h | h
          · obtain ⟨r', h1, h2⟩ := hrec.sound e h
            exact ⟨r', by simp [h1], h2⟩
          · simp only [List.mem_singleton] at h
            subst h
            exact ⟨r, by simp, hs, ⟨pq, hlg⟩, rfl, rfl⟩
        · intro r' hr' hst n pq' hn
          rcases List.mem_append.mp hr' with h | h
          · obtain ⟨e, he, h1⟩ := hrec.complete r' h hst n pq' hn
            exact ⟨e, by simp [he], h1⟩
          · simp only [List.mem_singleton] at h
            subst h
            rw [hlg] at hn
            cases hn
            exact ⟨(node, r'.id, r'.uRef), by simp, rfl, .inl rfl⟩
        · rw [List.map_append, List.nodup_append]
          refine ⟨hrec.keys, by simp, ?_⟩
          intro a ha b hb
          obtain ⟨e, he, rfl⟩ := List.mem_map.mp ha
          simp only [List.map_cons, List.map_nil, List.mem_singleton] at hb
          subst hb
          exact hno e he
        · unfold AgreeIn
          rw [List.pairwise_append]
          refine ⟨hag, by simp, ?_⟩
          intro a ha b hb hsa _ n pqa pqb hna hnb
          simp only [List.mem_singleton] at hb
          subst hb
          rw [hlg] at hnb
          cases hnb
          obtain ⟨e, he, h1, _⟩ := hrec.complete a ha hsa _ _ hna
          exact absurd h1 (hno e he)
      | some e =>
        obtain ⟨k, first, u⟩ := e
        have hin := List.mem_of_find?_eq_some hf
        have hk : k = node := by simpa using List.find?_some hf
        subst hk
        cases hdf : differ u r.uRef with
        | true =>
          rw [show uRefStep s v r = .error (.conflictingURef first r.id) by simp [uRefStep, hs, hlg, hf, hdf]]
          obtain ⟨r0, h1, h2, ⟨pq0, h3⟩, h4, h5⟩ := hrec.sound _ hin
          simp only at h3 h4 h5
          have hnot : ¬ ∃ w, r0.uRef = some w ∧ r.uRef = some w := by
            rw [h5, ← differ_false, hdf]
            simp
          refine ⟨?_, r0, by rw [← hd]; simp [h1], r, hmem, k, ⟨by rw [← hd]; simp [h1], h2, pq0, h3⟩,
            ⟨hmem, hs, pq, hlg⟩, by rw [h4], hnot⟩
          intro hall
          unfold AgreeIn at hall
          rw [← hd, List.pairwise_append] at hall
          exact hnot (hall.2.2 r0 h1 r (by simp) h2 hs k pq0 pq h3 hlg)
        | false =>
          rw [show uRefStep s v r = .ok v by simp [uRefStep, hs, hlg, hf, hdf]]
          obtain ⟨w, hw1, hw2⟩ := differ_false.mp hdf
          have agree : ∀ a ∈ done, a.status = true → ∀ pqa, s.loadGen a.object = some (k, pqa) → a.uRef = some w := by
            intro a ha hsa pqa hna
            obtain ⟨e, he, h1, h2⟩ := hrec.complete a ha hsa _ _ hna
            have hee : e = (k, first, u) := by
              exact inj_keys hrec.keys he hin h1
            subst hee
            rcases h2 with h2 | h2
            · rw [← h2]; exact hw1
            · obtain ⟨w', h3, h4⟩ := differ_false.mp h2
              simp only at h3
              rw [hw1] at h3
              cases h3
              exact h4
          refine ih (done ++ [r]) v hd' ⟨?_, ?_, hrec.keys⟩ ?_
          · intro e he
            obtain ⟨r', h1, h2⟩ := hrec.sound e he
            exact ⟨r', by simp [h1], h2⟩
          · intro r' hr' hst n pq' hn
            rcases List.mem_append.mp hr' with h | h
            · exact hrec.complete r' h hst n pq' hn
            · simp only [List.mem_singleton] at h
              subst h
              rw [hlg] at hn
              cases hn
              exact ⟨_, hin, rfl, .inr hdf⟩
          · unfold AgreeIn
            rw [List.pairwise_append]
            refine ⟨hag, by simp, ?_⟩
            intro a ha b hb hsa _ n pqa pqb hna hnb
            simp only [List.mem_singleton] at hb
            subst hb
            rw [hlg] at hnb
            cases hnb
            exact ⟨w, agree a ha hsa pqa hna, hw2⟩

theorem agree_iff (s : State K) : AgreeIn s s.regulators ↔ Agree s := by
  unfold AgreeIn Agree
  constructor
  · intro h
    refine List.Pairwise.imp_of_mem ?_ h
    intro a b _ _ hab n ha hb
    obtain ⟨_, h1, pq, h2⟩ := ha
    obtain ⟨_, h3, pq', h4⟩ := hb
    exact hab h1 h3 n pq pq' h2 h4
  · intro h
    refine List.Pairwise.imp_of_mem ?_ h
    intro a b ha hb hab h1 h2 n pq pq' h3 h4
    exact hab n ⟨ha, h1, pq, h3⟩ ⟨hb, h2, pq', h4⟩

theorem type_loop (s : State K) (l : List (VoltageRegulator K)) (hres : ∀ r ∈ l, ∃ x, s.loadGen r.object = some x) :
    match l.foldlM (typeStep s) () with
    | .ok _ => ∀ r ∈ l, r.status = true → ∃ n, s.loadGen r.object = some (n, true)
    | .error e => ∃ r ∈ l, r.status = true ∧ e = .unsupportedLoadGenType r.id ∧ ∃ n, s.loadGen r.object = some (n, false) := by
  induction l with
  | nil => simp [pure, Except.pure]
  | cons r l ih =>
    have ih' := ih (fun r hr => hres r (by simp [hr]))
    rw [List.foldlM_cons]
    cases hs : r.status with
    | false =>
      rw [show typeStep s () r = .ok () by simp [typeStep, hs]]
      simp only [bind, Except.bind]
      split at ih'
      · intro r' hr' hst
        rcases List.mem_cons.mp hr' with rfl | h'
        · rw [hs] at hst; cases hst
        · exact ih' r' h' hst
      · obtain ⟨r', h1, h2⟩ := ih'
        exact ⟨r', by simp [h1], h2⟩
    | true =>
      obtain ⟨⟨n, pq⟩, hlg⟩ := hres r (by simp)
      cases pq with
      | false =>
        rw [show typeStep s () r = .error (.unsupportedLoadGenType r.id) by simp [typeStep, hs, hlg]]
        exact ⟨r, by simp, hs, rfl, n, hlg⟩
      | true =>
        rw [show typeStep s () r = .ok () by simp [typeStep, hs, hlg]]
        simp only [bind, Except.bind]
        split at ih'
        · intro r' hr' hst
          rcases List.mem_cons.mp hr' with rfl | h'
          · exact ⟨n, hlg⟩
          · exact ih' r' h' hst
        · obtain ⟨r', h1, h2⟩ := ih'
          exact ⟨r', by simp [h1], h2⟩

theorem source_loop (v : Visited K) (l : List Source) :
    match l.foldlM (sourceStep v) () with
    | .ok _ => ∀ src ∈ l, src.status = true → ∀ e ∈ v, e.1 ≠ src.node
    | .error e => ∃ src ∈ l, src.status = true ∧ e = .unsupportedSourceCombination src.node ∧ ∃ x ∈ v, x.1 = src.node := by
  induction l with
  | nil => simp [pure, Except.pure]
  | cons a l ih =>
    rw [List.foldlM_cons]
    by_cases hc : (a.status && v.any (fun e => e.1 == a.node)) = true
    · rw [show sourceStep v () a = .error (.unsupportedSourceCombination a.node) by rw [sourceStep, if_pos hc]]
      rw [Bool.and_eq_true, List.any_eq_true] at hc
      obtain ⟨h1, x, h2, h3⟩ := hc
      exact ⟨a, by simp, h1, rfl, x, h2, by simpa using h3⟩
    · rw [show sourceStep v () a = .ok () by rw [sourceStep, if_neg hc]]
      simp only [bind, Except.bind]
      split at ih
      · intro src hsrc hst e he heq
        rcases List.mem_cons.mp hsrc with rfl | h'
        · apply hc
          rw [Bool.and_eq_true, List.any_eq_true]
          exact ⟨hst, e, he, by simpa using heq⟩
        · exact ih src h' hst e he heq
      · obtain ⟨src, h1, h2⟩ := ih
        exact ⟨src, by simp [h1], h2⟩

/-! ## C41 -/

/-- C41. With voltage regulators, a calculation passes validation exactly if there is no tap regulator, the enabled
regulators at each node agree on their reference voltage, enabled regulators regulate only constant-power
load/generators, and no active source shares a node with an enabled regulator. -/
theorem accepted_iff (s : State K) (hres : Resolved s) (hne : s.regulators ≠ []) :
    checkStateValidity s = .ok () ↔ s.nTapRegulators = 0 ∧ Agree s ∧ ConstantPower s ∧ NoSource s := by
  unfold checkStateValidity
  have hpos : s.regulators.length > 0 := List.length_pos_iff.mpr hne
  simp only [hpos, if_true]
  by_cases ht : s.nTapRegulators > 0
  · simp only [ht, if_true]
    constructor
    · intro h; cases h
    · rintro ⟨h, _⟩; omega
  · simp only [ht, if_false]
    have ht0 : s.nTapRegulators = 0 := by omega
    have h1 := uRef_loop s hres s.regulators [] [] (by simp) ⟨by simp, by simp, by simp⟩ (by simp [AgreeIn])
    unfold checkURef
    cases hu : s.regulators.foldlM (uRefStep s) [] with
    | error e =>
      rw [hu] at h1
      simp only [bind, Except.bind]
      constructor
      · intro h; cases h
      · rintro ⟨_, h, _⟩; exact absurd ((agree_iff s).mpr h) h1.1
    | ok v =>
      rw [hu] at h1
      obtain ⟨hrec, hag⟩ := h1
      have h2 := type_loop s s.regulators hres
      simp only [bind, Except.bind]
      unfold checkType
      cases hty : s.regulators.foldlM (typeStep s) () with
      | error e =>
        rw [hty] at h2
        obtain ⟨r, hr, hst, _, n, hn⟩ := h2
        constructor
        · intro h; cases h
        · rintro ⟨_, _, h, _⟩
          obtain ⟨n', hn'⟩ := h r hr hst
          rw [hn] at hn'
          cases hn'
      | ok u =>
        rw [hty] at h2
        have h3 := source_loop v s.sources
        simp only
        unfold checkSources
        cases hso : s.sources.foldlM (sourceStep v) () with
        | error e =>
          rw [hso] at h3
          obtain ⟨src, hsrc, hst, _, x, hx, hxn⟩ := h3
          obtain ⟨r, hr1, hr2, ⟨pq, hr3⟩, _⟩ := hrec.sound x hx
          constructor
          · intro h; cases h
          · rintro ⟨_, _, _, h⟩
            exact absurd hxn.symm (h r x.1 ⟨hr1, hr2, pq, hr3⟩ src hsrc hst)
        | ok u' =>
          rw [hso] at h3
          refine ⟨fun _ => ⟨ht0, (agree_iff s).mp hag, h2, ?_⟩, fun _ => rfl⟩
          intro r n ⟨hr1, hr2, pq, hr3⟩ src hsrc hst heq
          obtain ⟨e, he, h4, _⟩ := hrec.complete r hr1 hr2 n pq hr3
          exact h3 src hsrc hst e he (h4.trans heq.symm)

/-- C41. The error that is raised tells which condition is violated, and names the regulators or the node. -/
theorem rejected_reason (s : State K) (hres : Resolved s) (e : Err) (h : checkStateValidity s = .error e) :
    match e with
    | .lookup _ => False
    | .unsupportedRegulatorCombination => s.regulators ≠ [] ∧ 0 < s.nTapRegulators
    | .conflictingURef a b => ∃ r ∈ s.regulators, ∃ r' ∈ s.regulators, ∃ n, Controls s r n ∧ Controls s r' n ∧
        a = r.id ∧ b = r'.id ∧ ¬ ∃ u, r.uRef = some u ∧ r'.uRef = some u
    | .unsupportedLoadGenType a => ∃ r ∈ s.regulators, r.status = true ∧ r.id = a ∧ ∃ n, s.loadGen r.object = some (n, false)
    | .unsupportedSourceCombination n => ∃ r, Controls s r n ∧ ∃ src ∈ s.sources, src.status = true ∧ src.node = n := by
  unfold checkStateValidity at h
  by_cases hpos : s.regulators.length > 0
  · simp only [hpos, if_true] at h
    by_cases ht : s.nTapRegulators > 0
    · simp only [ht, if_true] at h
      cases h
      exact ⟨List.length_pos_iff.mp hpos, ht⟩
    · simp only [ht, if_false] at h
      have h1 := uRef_loop s hres s.regulators [] [] (by simp) ⟨by simp, by simp, by simp⟩ (by simp [AgreeIn])
      unfold checkURef at h
      cases hu : s.regulators.foldlM (uRefStep s) [] with
      | error e' =>
        rw [hu] at h1 h
        simp only [bind, Except.bind] at h
        obtain ⟨_, r, hr, r', hr', n, hc, hc', he, hnot⟩ := h1
        cases h
        subst he
        exact ⟨r, hr, r', hr', n, hc, hc', rfl, rfl, hnot⟩
      | ok v =>
        rw [hu] at h1 h
        obtain ⟨hrec, hag⟩ := h1
        have h2 := type_loop s s.regulators hres
        simp only [bind, Except.bind] at h
        unfold checkType at h
        cases hty : s.regulators.foldlM (typeStep s) () with
        | error e' =>
          rw [hty] at h2 h
          cases h
          obtain ⟨r, hr, hst, he, n, hn⟩ := h2
          subst he
          exact ⟨r, hr, hst, rfl, n, hn⟩
        | ok u =>
          rw [hty] at h2 h
          have h3 := source_loop v s.sources
          simp only at h
          unfold checkSources at h
          rw [h] at h3
          obtain ⟨src, hsrc, hst, he, x, hx, hxn⟩ := h3
          subst he
          obtain ⟨r, hr1, hr2, ⟨pq, hr3⟩, _⟩ := hrec.sound x hx
          exact ⟨r, ⟨hr1, hr2, pq, by rw [← hxn]; exact hr3⟩, src, hsrc, hst, rfl⟩
  · simp only [hpos, if_false] at h
    cases h

/-- C41. Without voltage regulators nothing is checked. -/
theorem no_regulators (s : State K) (h : s.regulators = []) : checkStateValidity s = .ok () := by
  simp [checkStateValidity, h]

/-! Non-vacuity: two generators at node 1 with equal reference voltages are accepted; a different reference, a NaN
reference, another load type and an active source are rejected, while a disabled regulator is ignored. -/

private def lg : Int → Option (Int × Bool)
  | 10 => some (1, true) | 11 => some (1, true) | 12 => some (2, false) | _ => none

private def st (rs : List (VoltageRegulator Nat)) (srcs : List Source) : State Nat := ⟨rs, 0, lg, srcs⟩

example : Resolved (st [⟨20, true, 10, some 5⟩, ⟨21, true, 11, some 5⟩] [⟨1, false⟩, ⟨2, true⟩]) := by
  intro r hr
  simp only [st, List.mem_cons, List.not_mem_nil, or_false] at hr
  rcases hr with rfl | rfl <;> exact ⟨_, rfl⟩

example : checkStateValidity (st [⟨20, true, 10, some 5⟩, ⟨21, true, 11, some 5⟩] [⟨1, false⟩, ⟨2, true⟩]) = .ok () := by
  decide
example : checkStateValidity (st [⟨20, true, 10, some 5⟩, ⟨21, true, 11, some 6⟩] []) = .error (.conflictingURef 20 21) := by
  decide
example : checkStateValidity (st [⟨20, true, 10, none⟩, ⟨21, true, 11, none⟩] []) = .error (.conflictingURef 20 21) := by
  decide
example : checkStateValidity (st [⟨20, true, 10, some 5⟩, ⟨21, false, 11, some 6⟩] []) = .ok () := by decide
example : checkStateValidity (st [⟨22, true, 12, some 5⟩] []) = .error (.unsupportedLoadGenType 22) := by decide
example : checkStateValidity (st [⟨20, true, 10, some 5⟩] [⟨1, true⟩]) = .error (.unsupportedSourceCombination 1) := by
  decide

end PGM.Prepare
