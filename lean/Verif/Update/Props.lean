import Verif.Update.Sequence
import Verif.Batch.Props
import Mathlib.Algebra.Field.Rat
import Mathlib.Tactic.NormNum

/-!
# Properties C08, C09, C10: updates of components

The theorems are about the concrete model: the component types `CompType` with their update rules `classOf K` and the
visiting order `allTypes`. The user's view of attributes is `schemaOf K` (`Verif.Update.Spec`).
-/

set_option linter.unusedSectionVars false
set_option linter.unusedTactic false
set_option linter.unreachableTactic false

namespace PGM.Update

variable {K : Type} [Field K] [DecidableEq K]

/-- The model of a power grid, reduced to what updates touch. -/
abbrev Grid (K : Type) [Field K] [DecidableEq K] := Model (classOf K)

/-! ## Specification -/

/-- The ID map is exactly the map from the IDs of the stored components to their places (proved for every constructed
container under C04). -/
def Consistent (m : Grid K) : Prop :=
  ∀ id t j, m.index id = some (t, j) ↔ ∃ c, (m.comps t)[j]? = some c ∧ (classOf K t).cid c = id

/-- Every component is in a state that its constructor can produce. -/
def WellFormed (m : Grid K) : Prop := ∀ t, ∀ c ∈ m.comps t, (schemaOf K t).wf c

/-- The update elements that are meant for component number `j`, which is `c`: with IDs those with its ID, without any ID
the `j`-th element. -/
def addressed (cl : CompClass) (us : List cl.U) (j : Nat) (c : cl.C) : List cl.U :=
  if us.all (fun u => cl.uid u = -2147483648) then us[j]?.toList else us.filter (fun u => cl.uid u = cl.cid c)

/-- The update elements of a type in a permanent update. -/
abbrev given1 (d : Dataset (classOf K)) (t : CompType) : List (classOf K t).U := d.span t 0

/-- IDs are given for all elements, or for none and then there is one element per component. -/
def Shaped {cl : CompClass} (n : Nat) (us : List cl.U) : Prop :=
  (∀ u ∈ us, cl.uid u ≠ -2147483648) ∨ ((∀ u ∈ us, cl.uid u = -2147483648) ∧ us.length = n)

theorem allTypes_nodup : allTypes.Nodup := by decide
theorem mem_allTypes (t : CompType) : t ∈ allTypes := by cases t <;> decide

/-! ## C10: omitted attributes keep their value -/

/-- C10. For every component type: an attribute that the update gives takes that value (tap positions: limited to the tap
range), an attribute that the update omits keeps its value. Partial: for the two regulators the status must be given,
because an omitted status is not treated as omitted (`tapRegulator_omitted_status`, `voltageRegulator_omitted_status`). -/
theorem update_sets_given_partial (t : CompType) (c : (classOf K t).C) (u : (classOf K t).U) (hw : (schemaOf K t).wf c)
    (hs : (schemaOf K t).full u) : SetsGiven (schemaOf K t) c u :=
  (lawfulOf t).sets c u hw hs

/-- For all other component types the property holds in full. -/
theorem update_sets_given (t : CompType) (ht : t ≠ .tapRegulator ∧ t ≠ .voltageRegulator) (c : (classOf K t).C)
    (u : (classOf K t).U) (hw : (schemaOf K t).wf c) : SetsGiven (schemaOf K t) c u := by
  apply (lawfulOf t).sets c u hw
  cases t <;> first | trivial | exact absurd rfl ht.1 | exact absurd rfl ht.2

/-- Updating with nothing given changes nothing. -/
theorem update_nothing (t : CompType) (ht : t ≠ .tapRegulator ∧ t ≠ .voltageRegulator) (c : (classOf K t).C)
    (u : (classOf K t).U) (hw : (schemaOf K t).wf c) (hn : ∀ a, (schemaOf K t).given u a = none) :
    ((classOf K t).update c u).1 = c := by
  apply (lawfulOf t).ext _ _ ((lawfulOf t).wf_update c u hw) ((lawfulOf t).fixed_update c u)
  intro a
  rw [update_sets_given t ht c u hw a, hn a]

/-- An update that omits the status of a tap regulator switches the regulator on. -/
theorem tapRegulator_omitted_status (c : TapRegulator K) (u : TapRegulatorUpdate K) (h : u.status = -128) :
    (tapRegulatorSchema K).given u .status = none ∧
    (tapRegulatorSchema K).value ((tapRegulatorClass K).update c u).1 .status = some (.flag true) := by
  constructor
  · simp [tapRegulatorSchema, givenStatus, h]
  · simp [tapRegulatorSchema, tapRegulatorClass, TapRegulator.update, h, toBool]

theorem voltageRegulator_omitted_status (c : VoltageRegulator K) (u : VoltageRegulatorUpdate K) (h : u.status = -128) :
    (voltageRegulatorSchema K).given u .status = none ∧
    (voltageRegulatorSchema K).value ((voltageRegulatorClass K).update c u).1 .status = some (.flag true) := by
  constructor
  · simp [voltageRegulatorSchema, givenStatus, h]
  · simp [voltageRegulatorSchema, voltageRegulatorClass, VoltageRegulator.update, h, toBool]

/-- The full statement of C10 is therefore false: a disabled regulator and an update that gives nothing. -/
theorem omitted_attributes_unchanged_false :
    ¬ ∀ (c : TapRegulator K) (u : TapRegulatorUpdate K), SetsGiven (tapRegulatorSchema K) c u := by
  intro h
  have h1 := h ⟨⟨1⟩, false, none, none, none, none⟩ ⟨1, -128, none, none, none, none⟩ .status
  simp [tapRegulatorSchema, tapRegulatorClass, TapRegulator.update, givenStatus, toBool] at h1

/-! ## C09: addressing -/

theorem good_hits (m : Grid K) (hc : Consistent m) (t : CompType) (us : List (classOf K t).U) (seq : List Nat)
    (hg : Good m.index (m.comps t).length t us seq) (j : Nat) (c : (classOf K t).C) (hj : (m.comps t)[j]? = some c) :
    hits us seq j = addressed (classOf K t) us j c := by
  obtain ⟨hl, hg⟩ := hg
  have hzip : ∀ (us : List (classOf K t).U) (k0 : Nat),
      (((us.zip (List.range' k0 us.length)).filter (fun x => x.2 = j)).map (·.1)) =
        if k0 ≤ j then us[j - k0]?.toList else [] := by
    intro us
    induction us with
    | nil => intro k0; simp
    | cons u us ih =>
      intro k0
      simp only [List.length_cons, List.range'_succ, List.zip_cons_cons, List.filter_cons]
      by_cases h : k0 = j
      · subst h
        simp [ih]
      · simp only [h, decide_false, Bool.false_eq_true, if_false]
        rw [ih]
        by_cases h2 : k0 ≤ j
        · have h3 : k0 + 1 ≤ j := by omega
          have h4 : j - k0 = (j - (k0 + 1)) + 1 := by omega
          simp [h2, h3, h4]
        · have h3 : ¬ k0 + 1 ≤ j := by omega
          simp [h2, h3]
  rcases hg with ⟨hna, hn, rfl⟩ | ⟨hn, hidx⟩
  · have : us.all (fun u => (classOf K t).uid u = -2147483648) = true := by
      simp only [List.all_eq_true, decide_eq_true_eq]
      exact hna
    unfold addressed hits
    rw [if_pos this, List.range_eq_range', hzip us 0]
    simp
  · have hfil : ∀ (us : List (classOf K t).U) (seq : List Nat), seq.length = us.length →
        (∀ (k : Nat) u, us[k]? = some u → ∃ j, seq[k]? = some j ∧ m.index ((classOf K t).uid u) = some (t, j)) →
        (((us.zip seq).filter (fun x => x.2 = j)).map (·.1)) =
          us.filter (fun u => (classOf K t).uid u = (classOf K t).cid c) := by
      intro us
      induction us with
      | nil => intro seq _ _; simp
      | cons u us ih =>
        intro seq hlen hk
        cases seq with
        | nil => simp at hlen
        | cons i is =>
          obtain ⟨i', h1, h2⟩ := hk 0 u (by simp)
          simp only [List.getElem?_cons_zero, Option.some.injEq] at h1
          subst h1
          have iht := ih is (by simpa using hlen) (fun k u hu => by simpa using hk (k + 1) u (by simpa using hu))
          simp only [List.zip_cons_cons, List.filter_cons]
          obtain ⟨ci, hci, hid⟩ := (hc _ t i).mp h2
          by_cases hij : i = j
          · subst hij
            rw [hj] at hci
            cases hci
            simp [hid, iht]
          · have hne : (classOf K t).uid u ≠ (classOf K t).cid c := by
              intro he
              have := (hc _ t j).mpr ⟨c, hj, rfl⟩
              rw [← he, h2] at this
              simp only [Option.some.injEq, Prod.mk.injEq, true_and] at this
              exact hij this
            simp [hij, hne, iht]
    unfold hits
    rw [hfil us seq hl hidx]
    unfold addressed
    split
    · rename_i hall
      simp only [List.all_eq_true, decide_eq_true_eq] at hall
      cases us with
      | nil => simp
      | cons u us => exact absurd (hall u (by simp)) (hn u (by simp))
    · rfl

theorem good_range (m : Grid K) (hc : Consistent m) (t : CompType) (us : List (classOf K t).U) (seq : List Nat)
    (hg : Good m.index (m.comps t).length t us seq) (u : (classOf K t).U) (i : Nat) (h : (u, i) ∈ us.zip seq) :
    i < (m.comps t).length := by
  obtain ⟨hl, hg⟩ := hg
  rcases hg with ⟨_, hn, rfl⟩ | ⟨_, hidx⟩
  · have := (List.of_mem_zip h).2
    rw [List.mem_range] at this
    omega
  · obtain ⟨k, hk, he⟩ := List.getElem_of_mem h
    simp only [List.getElem_zip, Prod.mk.injEq] at he
    have hk' : k < us.length ∧ k < seq.length := by simpa using hk
    obtain ⟨j, hj1, hj2⟩ := hidx k u (by rw [List.getElem?_eq_getElem hk'.1, he.1])
    rw [List.getElem?_eq_getElem hk'.2, he.2] at hj1
    cases hj1
    obtain ⟨c, hc1, _⟩ := (hc _ t i).mp hj2
    exact (List.getElem?_eq_some_iff.mp hc1).1

theorem single_props (d : Dataset (classOf K)) (t : CompType) (n : Nat) :
    (d.single 0).span t 0 = d.span t 0 ∧
    ((checkIndependence (d.single 0) t n).independent = true ↔ Shaped (cl := classOf K t) n (d.span t 0) ∨
      d.span t 0 = []) := by
  have e1 : (d.single 0).span t 0 = d.span t 0 := rfl
  refine ⟨e1, ?_⟩
  have hr1 : List.range 1 = [0] := rfl
  unfold checkIndependence
  cases hh : d.has t with
  | false =>
    have hany : (d.single 0).hasAny t = false := by simp [Dataset.hasAny, Dataset.single, hh]
    have hsp : d.span t 0 = [] := by simp [Dataset.span, hh]
    simp [hany, UpdProps.independent, UpdProps.provided, hsp]
  | true =>
    have hsp : d.span t 0 = d.elems t 0 := by simp [Dataset.span, hh]
    rw [hsp]
    cases hl : d.elems t 0 with
    | nil =>
      have hany : (d.single 0).hasAny t = false := by simp [Dataset.hasAny, Dataset.single, hh, hr1, hl]
      simp [hany, UpdProps.independent, UpdProps.provided]
    | cons u us =>
      have hany : (d.single 0).hasAny t = true := by simp [Dataset.hasAny, Dataset.single, hh, hr1, hl]
      have huni : (d.single 0).uniform t = true := by simp [Dataset.uniform, Dataset.single, hr1]
      have hmat : idsMatch (d.single 0) t = true := by simp [idsMatch, Dataset.single, hr1]
      have hall : allIdsNa (d.single 0) t = (u :: us).all (fun u => idNa ((classOf K t).uid u)) := by
        simp [allIdsNa, Dataset.single, hr1, hl]
      have hnone : anyIdsNa (d.single 0) t = (u :: us).any (fun u => idNa ((classOf K t).uid u)) := by
        simp [anyIdsNa, Dataset.single, hr1, hl]
      have hper : (d.single 0).perScenario t = (u :: us).length := by
        simp [Dataset.perScenario, Dataset.single, hh, hl]
      simp only [hany, if_true, huni, hmat, UpdProps.independent, UpdProps.qualify, UpdProps.provided, hper]
      generalize hA : allIdsNa (d.single 0) t = A
      generalize hB : anyIdsNa (d.single 0) t = B
      rw [hA] at hall
      rw [hB] at hnone
      have hA' : A = true ↔ ∀ v ∈ u :: us, (classOf K t).uid v = -2147483648 := by
        rw [hall, List.all_eq_true]
        simp only [idNa_eq, naIntID]
      have hB' : B = false ↔ ∀ v ∈ u :: us, (classOf K t).uid v ≠ -2147483648 := by
        rw [hnone, List.any_eq_false]
        simp only [idNa_eq, naIntID, ne_eq]
      have hAB : A = true → B = true := by
        intro ha
        cases hb : B with
        | true => rfl
        | false => exact absurd (hA'.mp ha u (by simp)) (hB'.mp hb u (by simp))
      unfold Shaped
      rw [← hA', ← hB']
      cases A <;> cases B <;> simp at hAB ⊢

/-- What the index sequences of a permanent update are. -/
theorem permanent_sequence (d : Dataset (classOf K)) (m : Grid K) (t : CompType) (l : List Nat)
    (h : sequenceOf m.index (d.single 0) 0 (allProps (d.single 0) m t) false t = .ok l) :
    (Shaped (cl := classOf K t) (m.comps t).length (given1 d t) ∨ given1 d t = [] →
      Good m.index (m.comps t).length t (given1 d t) l) ∧
    (¬ (Shaped (cl := classOf K t) (m.comps t).length (given1 d t) ∨ given1 d t = []) → l = []) := by
  obtain ⟨_, hind⟩ := single_props d t (m.comps t).length
  constructor
  · intro hs
    have hi := hind.mpr hs
    have hcur : sequenceOf m.index (d.single 0) 0 (checkIndependence (d.single 0) t (m.comps t).length) true t
        = .ok [] := by
      unfold sequenceOf
      simp [hi]
    have := batch_good m.index (d.single 0) t (m.comps t).length l [] (by simp [Dataset.single]) h 0
      (by simp [Dataset.single]) hcur
    rwa [hi, if_pos rfl] at this
  · intro hs
    have hi : (checkIndependence (d.single 0) t (m.comps t).length).independent = false := by
      cases hh : (checkIndependence (d.single 0) t (m.comps t).length).independent with
      | false => rfl
      | true => exact absurd (hind.mp hh) hs
    unfold sequenceOf allProps at h
    simp [hi] at h
    exact h

/-- C09. After a permanent update that is not rejected, every component has been updated with exactly the elements that
address it (by ID, or by position if no IDs are given), in their order, and with nothing else. -/
theorem permanent_update_effect (d : Dataset (classOf K)) (m : Grid K) (hc : Consistent m)
    (h : (permanentUpdate allTypes d m).2 = .done) (t : CompType) (j : Nat) :
    ((permanentUpdate allTypes d m).1.comps t)[j]? =
      (m.comps t)[j]?.map (fun c =>
        (addressed (classOf K t) (given1 d t) j c).foldl (fun c u => ((classOf K t).update c u).1) c) ∧
    (permanentUpdate allTypes d m).1.index = m.index := by
  unfold permanentUpdate at h ⊢
  simp only at h ⊢
  cases hs : sequenceMap allTypes m.index (d.single 0) 0 (allProps (d.single 0) m) false with
  | error e => simp [hs] at h
  | ok seq =>
    simp only [hs, updateComponents] at h ⊢
    have hso := sequenceMap_ok allTypes allTypes_nodup _ _ _ _ _ seq hs t (mem_allTypes t)
    obtain ⟨i1, i2, i3, i4⟩ := forTypes_update_done false (fun t => (d.single 0).span t 0) seq allTypes allTypes_nodup m
    obtain ⟨ha, hb⟩ := i4 h t (mem_allTypes t)
    refine ⟨?_, i1⟩
    rw [hb, applySeq_done _ _ _ ha]
    obtain ⟨g1, g2⟩ := permanent_sequence d m t (seq t) hso
    by_cases hsh : Shaped (cl := classOf K t) (m.comps t).length (given1 d t) ∨ given1 d t = []
    · cases hj : (m.comps t)[j]? with
      | none => rfl
      | some c =>
        simp only [Option.map_some]
        rw [← good_hits m hc t (given1 d t) (seq t) (g1 hsh) j c hj]
        rfl
    · have hne : (d.single 0).span t 0 ≠ [] := fun he => hsh (Or.inr he)
      rw [g2 hsh] at ha
      rw [applySeq_undefined _ _ hne] at ha
      cases ha

theorem independent_validates (d : Dataset (classOf K)) (t : CompType) (n : Nat)
    (hind : (checkIndependence d t n).independent = true) : validate (checkIndependence d t n) = .ok () := by
  have hpart : (checkIndependence d t n).allNa = true → (checkIndependence d t n).partNa = false := by
    unfold checkIndependence
    split
    · intro h; simp_all
    · simp
  generalize checkIndependence d t n = p at hind hpart
  unfold validate
  cases hA : p.hasAny with
  | false => simp
  | true =>
    cases hq : p.qualify with
    | true =>
      have hq' := hq
      simp only [UpdProps.qualify, Bool.and_eq_true, beq_iff_eq] at hq'
      have := hpart hq'.1.1.2
      simp [UpdProps.nElements, hq, hq'.2, hq'.1.1.2, this]
    | false =>
      simp only [UpdProps.independent, hq, UpdProps.provided, hA, Bool.not_true, Bool.false_or,
        Bool.and_eq_true, Bool.not_eq_true', Bool.or_eq_false_iff] at hind
      simp [UpdProps.nElements, hq, hind.2.1, hind.2.2]

/-- C09. An update that names an ID which no component of that type has is rejected with an error, and no component
changes. -/
theorem permanent_update_unknown_id (d : Dataset (classOf K)) (m : Grid K) (hc : Consistent m) (t : CompType)
    (u : (classOf K t).U) (hu : u ∈ given1 d t) (hnamed : ∀ v ∈ given1 d t, (classOf K t).uid v ≠ -2147483648)
    (hunknown : ∀ c ∈ m.comps t, (classOf K t).cid c ≠ (classOf K t).uid u) :
    (permanentUpdate allTypes d m).1 = m ∧
    ∃ id, (permanentUpdate allTypes d m).2 = .raised (.idNotFound id) ∨
          (permanentUpdate allTypes d m).2 = .raised (.idWrongType id) := by
  unfold permanentUpdate
  simp only
  cases hs : sequenceMap allTypes m.index (d.single 0) 0 (allProps (d.single 0) m) false with
  | ok seq =>
    exfalso
    have hso := sequenceMap_ok allTypes allTypes_nodup _ _ _ _ _ seq hs t (mem_allTypes t)
    obtain ⟨g1, _⟩ := permanent_sequence d m t (seq t) hso
    obtain ⟨hl, hg⟩ := g1 (Or.inl (Or.inl hnamed))
    rcases hg with ⟨hna, _⟩ | ⟨_, hidx⟩
    · exact hnamed u hu (hna u hu)
    · obtain ⟨k, hk, he⟩ := List.getElem_of_mem hu
      obtain ⟨j, _, hj⟩ := hidx k u (by rw [List.getElem?_eq_getElem hk, he])
      obtain ⟨c, h1, h2⟩ := (hc _ t j).mp hj
      exact hunknown c (List.mem_of_getElem? h1) h2
  | error e =>
    refine ⟨rfl, ?_⟩
    obtain ⟨t', _, ht'⟩ := foldlM_err _ _ _ _ _ _ _ _ hs
    unfold sequenceOf at ht'
    split at ht'
    · rename_i hcond
      simp only [Bool.and_eq_true, bne_iff_ne, ne_eq] at hcond
      have hind : (allProps (d.single 0) m t').independent = true := by
        cases h : (allProps (d.single 0) m t').independent with
        | true => rfl
        | false => exact absurd h.symm hcond.1
      have hval : validate (allProps (d.single 0) m t') = .ok () := independent_validates _ _ _ hind
      rw [hval] at ht'
      simp only [bind, Except.bind] at ht'
      unfold sequence at ht'
      split at ht'
      · obtain ⟨v, _, _, h3⟩ := mapM_idx_err _ _ _ _ ht'
        rcases h3 with ⟨rfl, _⟩ | ⟨rfl, _⟩
        · exact ⟨_, Or.inl rfl⟩
        · exact ⟨_, Or.inr rfl⟩
      · cases ht'
    · cases ht'

/-- C09, converse of rejection: an update in which all IDs are known and the shape is right runs to its end, except that a
fault update can be refused by the fault's own consistency check. -/
theorem permanent_update_accepted (d : Dataset (classOf K)) (m : Grid K) (hc : Consistent m)
    (hshape : ∀ t, Shaped (cl := classOf K t) (m.comps t).length (given1 d t) ∨ given1 d t = [])
    (hknown : ∀ t, (∀ v ∈ given1 d t, (classOf K t).uid v ≠ -2147483648) → ∀ u ∈ given1 d t,
      ∃ c ∈ m.comps t, (classOf K t).cid c = (classOf K t).uid u) :
    (permanentUpdate allTypes d m).2 = .done ∨
    ((permanentUpdate allTypes d m).2 = .raised .invalidFault ∧
      ∃ t c u, u ∈ given1 d t ∧ ((classOf K t).update c u).2.2 = true) := by
  unfold permanentUpdate
  simp only
  cases hs : sequenceMap allTypes m.index (d.single 0) 0 (allProps (d.single 0) m) false with
  | error e =>
    exfalso
    obtain ⟨t, _, ht⟩ := foldlM_err _ _ _ _ _ _ _ _ hs
    unfold sequenceOf at ht
    split at ht
    · have hind := (single_props d t (m.comps t).length).2.mpr (hshape t)
      rw [show allProps (d.single 0) m t = checkIndependence (d.single 0) t (m.comps t).length from rfl,
        independent_validates _ _ _ hind] at ht
      simp only [bind, Except.bind] at ht
      unfold sequence at ht
      split at ht
      · rename_i hnel
        obtain ⟨v, hv, hv2, _⟩ := mapM_idx_err _ _ _ _ ht
        have hv' : v ∈ given1 d t := hv
        have hnamed : ∀ v ∈ given1 d t, (classOf K t).uid v ≠ -2147483648 := by
          have hq : (checkIndependence (d.single 0) t (m.comps t).length).qualify = false := by
            cases hq : (checkIndependence (d.single 0) t (m.comps t).length).qualify with
            | false => rfl
            | true =>
              have hq' := hq
              simp only [UpdProps.qualify, Bool.and_eq_true, beq_iff_eq] at hq'
              simp [UpdProps.nElements, hq, hq'.2] at hnel
          rcases hshape t with hsh | hsh
          · rcases hsh with hsh | ⟨hna, hlen⟩
            · exact hsh
            · exfalso
              have hhas : d.has t = true := by
                cases hh : d.has t with
                | true => rfl
                | false => simp [given1, Dataset.span, hh] at hv'
              have hsp : d.span t 0 = d.elems t 0 := by simp [Dataset.span, hhas]
              have hr1 : List.range 1 = [0] := rfl
              simp only [given1, hsp] at hv' hna hlen
              have hany : (d.single 0).hasAny t = true := by
                simp only [Dataset.hasAny, Dataset.single, hhas, hr1, List.any_cons, List.any_nil, Bool.or_false,
                  Bool.true_and, Bool.not_eq_true']
                cases he : d.elems t 0 with
                | nil => rw [he] at hv'; simp at hv'
                | cons a b => rfl
              have hall : allIdsNa (d.single 0) t = true := by
                simp only [allIdsNa, Dataset.single, hr1, List.all_cons, List.all_nil, Bool.and_true, List.all_eq_true]
                intro u hu
                exact (idNa_eq _).mpr (hna u hu)
              have huni : (d.single 0).uniform t = true := by simp [Dataset.uniform, Dataset.single, hr1]
              have hmat : idsMatch (d.single 0) t = true := by simp [idsMatch, Dataset.single, hr1]
              have hper : (d.single 0).perScenario t = (m.comps t).length := by
                simp [Dataset.perScenario, Dataset.single, hhas, hlen]
              simp [checkIndependence, hany, UpdProps.qualify, hall, huni, hmat, hper] at hq
          · rw [hsh] at hv'; simp at hv'
        obtain ⟨c, hcm, hid⟩ := hknown t hnamed v hv'
        obtain ⟨k, hk, he⟩ := List.getElem_of_mem hcm
        exact hv2 k ((hc _ t k).mpr ⟨c, by rw [List.getElem?_eq_getElem hk, he], hid⟩)
      · cases ht
    · cases ht
  | ok seq =>
    simp only [updateComponents]
    have hgood : ∀ t, Good m.index (m.comps t).length t (given1 d t) (seq t) := fun t =>
      (permanent_sequence d m t (seq t) (sequenceMap_ok allTypes allTypes_nodup _ _ _ _ _ seq hs t (mem_allTypes t))).1
        (hshape t)
    -- the loop
    have hloop : ∀ (ts : List CompType) (m' : Grid K), (∀ t, (m'.comps t).length = (m.comps t).length) →
        (forTypes (fun t => updateType false t ((d.single 0).span t 0) (seq t)) ts m').2 = .done ∨
        ((forTypes (fun t => updateType false t ((d.single 0).span t 0) (seq t)) ts m').2 = .raised .invalidFault ∧
          ∃ t c u, u ∈ given1 d t ∧ ((classOf K t).update c u).2.2 = true) := by
      intro ts
      induction ts with
      | nil => intro m' _; exact Or.inl rfl
      | cons t ts ih =>
        intro m' hlen
        obtain ⟨a1, a2, a3, a4⟩ := applyType_core false t ((d.single 0).span t 0) (seq t) m'
        have hdef := applySeq_defined (m'.comps t) (given1 d t) (seq t) (by rw [(hgood t).1])
          (fun u i hui => by rw [hlen t]; exact good_range m hc t _ _ (hgood t) u i hui)
        simp only [forTypes]
        have hu : updateType false t ((d.single 0).span t 0) (seq t) m' =
            applyType false t ((d.single 0).span t 0) (seq t) m' := by simp [updateType]
        rw [hu]
        generalize hx : applyType false t ((d.single 0).span t 0) (seq t) m' = x at a1 a2 a3 a4
        obtain ⟨xm, xo⟩ := x
        simp only at a1 a2 a3 a4
        cases xo with
        | done =>
          simp only
          apply ih
          intro t'
          rw [a1]
          by_cases h : t' = t
          · subst h; simp [applySeq_length, hlen]
          · simp [Function.update_of_ne h, hlen]
        | raised e =>
          right
          simp only
          obtain ⟨h1, c, u, h2, h3⟩ := applySeq_raised _ _ _ e a4.symm
          exact ⟨by rw [h1], t, c, u, h2, h3⟩
        | undefined => exact absurd a4.symm hdef
    exact hloop allTypes m (fun _ => rfl)

/-- Finding: a permanent update whose IDs are partly omitted, or all omitted with a number of elements different from the
number of components, is not rejected with an error: if everything else is right, the program reads outside of an array. -/
theorem permanent_update_bad_shape_undefined (d : Dataset (classOf K)) (m : Grid K) (t : CompType)
    (hne : given1 d t ≠ []) (hbad : ¬ Shaped (cl := classOf K t) (m.comps t).length (given1 d t))
    (honly : ∀ t', t' ≠ t → given1 d t' = []) :
    (permanentUpdate allTypes d m).2 = .undefined := by
  have hbad' : ¬ (Shaped (cl := classOf K t) (m.comps t).length (given1 d t) ∨ given1 d t = []) := by
    rintro (h | h)
    · exact hbad h
    · exact hne h
  have hok : ∀ t', sequenceOf m.index (d.single 0) 0 (allProps (d.single 0) m t') false t' = .ok [] := by
    intro t'
    unfold sequenceOf
    by_cases ht : t' = t
    · subst ht
      have : (allProps (d.single 0) m t').independent = false := by
        cases hh : (allProps (d.single 0) m t').independent with
        | false => rfl
        | true => exact absurd ((single_props d t' _).2.mp hh) hbad'
      simp [this]
    · have hind := (single_props d t' (m.comps t').length).2.mpr (Or.inr (honly t' ht))
      split
      · rw [show allProps (d.single 0) m t' = checkIndependence (d.single 0) t' (m.comps t').length from rfl,
          independent_validates _ _ _ hind]
        have : (d.single 0).span t' 0 = [] := honly t' ht
        simp only [bind, Except.bind, this, sequence]
        split <;> simp [pure, Except.pure]
      · rfl
  unfold permanentUpdate
  simp only
  cases hs : sequenceMap allTypes m.index (d.single 0) 0 (allProps (d.single 0) m) false with
  | error e =>
    obtain ⟨t', _, ht'⟩ := foldlM_err _ _ _ _ _ _ _ _ hs
    rw [hok t'] at ht'
    cases ht'
  | ok seq =>
    simp only [updateComponents]
    have hseq : ∀ t', seq t' = [] := by
      intro t'
      have := sequenceMap_ok allTypes allTypes_nodup _ _ _ _ _ seq hs t' (mem_allTypes t')
      rw [hok t'] at this
      exact (Except.ok.inj this).symm
    have hloop : ∀ (ts : List CompType) (m' : Grid K), t ∈ ts →
        (forTypes (fun t => updateType false t ((d.single 0).span t 0) (seq t)) ts m').2 = .undefined := by
      intro ts
      induction ts with
      | nil => intro m' h; simp at h
      | cons t' ts ih =>
        intro m' hmem
        obtain ⟨a1, a2, a3, a4⟩ := applyType_core false t' ((d.single 0).span t' 0) (seq t') m'
        have hu : updateType false t' ((d.single 0).span t' 0) (seq t') m' =
            applyType false t' ((d.single 0).span t' 0) (seq t') m' := by simp [updateType]
        simp only [forTypes]
        rw [hu]
        by_cases ht : t' = t
        · subst ht
          rw [hseq t'] at a4 ⊢
          rw [applySeq_undefined (cl := classOf K t') _ ((d.single 0).span t' 0) hne] at a4
          generalize hx : applyType false t' ((d.single 0).span t' 0) [] m' = x at a4
          obtain ⟨xm, xo⟩ := x
          simp only at a4
          subst a4
          rfl
        · have h0 : (d.single 0).span t' 0 = [] := honly t' ht
          rw [h0] at a4 ⊢
          have a4' : (applyType false t' [] (seq t') m').2 = .done := by rw [a4]; simp [applySeq]
          generalize hx : applyType false t' [] (seq t') m' = x at a4'
          obtain ⟨xm, xo⟩ := x
          simp only at a4'
          subst a4'
          simp only
          apply ih
          rcases List.mem_cons.mp hmem with h | h
          · exact absurd h.symm ht
          · exact h
    exact hloop allTypes m (mem_allTypes t)

/-- `d'` is `d` with the IDs written out: for every component type either nothing changes, or `d` omits all IDs and gives one
element per component, and `d'` gives the same elements with the ID of the component at the same position. -/
def NamedVersion (m : Grid K) (d d' : Dataset (classOf K)) : Prop :=
  ∀ t, given1 d' t = given1 d t ∨
    ((∀ u ∈ given1 d t, (classOf K t).uid u = -2147483648) ∧ (given1 d t).length = (m.comps t).length ∧
     given1 d' t = List.zipWith (fun u c => (classOf K t).withId u ((classOf K t).cid c)) (given1 d t) (m.comps t))

/-- The index sequence of a permanent update as a function of its elements. -/
theorem sequenceOf_single (d : Dataset (classOf K)) (m : Grid K) (t : CompType) :
    sequenceOf m.index (d.single 0) 0 (allProps (d.single 0) m t) false t =
      if (given1 d t).all (fun u => (classOf K t).uid u = -2147483648) then
        if (given1 d t).length = (m.comps t).length then .ok (List.range (given1 d t).length) else .ok []
      else if (given1 d t).any (fun u => (classOf K t).uid u = -2147483648) then .ok []
      else (given1 d t).mapM (fun u => idxById m.index t ((classOf K t).uid u)) := by
  have hr1 : List.range 1 = [0] := rfl
  unfold sequenceOf
  have hal : allProps (d.single 0) m t = checkIndependence (d.single 0) t (m.comps t).length := rfl
  rw [hal]
  cases hh : d.has t with
  | false =>
    have hsp : given1 d t = [] := by simp [given1, Dataset.span, hh]
    have : (d.single 0).has t = false := hh
    simp [this, hsp]
  | true =>
    have hh' : (d.single 0).has t = true := hh
    have hsp : given1 d t = d.elems t 0 := by simp [given1, Dataset.span, hh]
    have hsp' : (d.single 0).span t 0 = d.elems t 0 := by simp [Dataset.span, hh, Dataset.single]
    rw [hsp, hsp']
    simp only [hh', Bool.and_true]
    cases hl : d.elems t 0 with
    | nil =>
      have hany : (d.single 0).hasAny t = false := by simp [Dataset.hasAny, Dataset.single, hr1, hl]
      have hind : (checkIndependence (d.single 0) t (m.comps t).length).independent = true := by
        simp [hany, checkIndependence, UpdProps.independent, UpdProps.provided]
      rw [independent_validates _ _ _ hind]
      simp only [hind, bind, Except.bind, sequence]
      cases (checkIndependence (d.single 0) t (m.comps t).length).nElements <;> simp [pure, Except.pure]
    | cons u us =>
      have hany : (d.single 0).hasAny t = true := by simp [Dataset.hasAny, Dataset.single, hh, hr1, hl]
      have huni : (d.single 0).uniform t = true := by simp [Dataset.uniform, Dataset.single, hr1]
      have hmat : idsMatch (d.single 0) t = true := by simp [idsMatch, Dataset.single, hr1]
      have hall : allIdsNa (d.single 0) t = (u :: us).all (fun u => (classOf K t).uid u = -2147483648) := by
        simp [allIdsNa, Dataset.single, hr1, hl, idNa, naIntID]
        rfl
      have hnone : anyIdsNa (d.single 0) t = (u :: us).any (fun u => (classOf K t).uid u = -2147483648) := by
        simp [anyIdsNa, Dataset.single, hr1, hl, idNa, naIntID]
        rfl
      have hper : (d.single 0).perScenario t = (u :: us).length := by
        simp [Dataset.perScenario, Dataset.single, hh, hl]
      have hp : checkIndependence (d.single 0) t (m.comps t).length =
        { hasAny := true, allNa := (u :: us).all (fun u => (classOf K t).uid u = -2147483648)
          partNa := !((u :: us).all (fun u => (classOf K t).uid u = -2147483648)) &&
            (u :: us).any (fun u => (classOf K t).uid u = -2147483648)
          uniform := true, match_ := true, ps := some (u :: us).length, base := (m.comps t).length } := by
        simp [checkIndependence, hany, hall, hnone, huni, hmat, hper]
      rw [hp]
      have hAB : (u :: us).all (fun u => (classOf K t).uid u = -2147483648) = true →
          (u :: us).any (fun u => (classOf K t).uid u = -2147483648) = true := by
        intro h
        simp only [List.all_cons, Bool.and_eq_true] at h
        simp [h.1]
      generalize (u :: us).all (fun u => (classOf K t).uid u = -2147483648) = A at *
      generalize (u :: us).any (fun u => (classOf K t).uid u = -2147483648) = B at *
      generalize (u :: us) = l at *
      cases A with
      | true =>
        by_cases hlen : l.length = (m.comps t).length
        · simp [UpdProps.independent, UpdProps.qualify, UpdProps.provided, validate, UpdProps.nElements, hlen, bind,
            Except.bind, sequence]
        · simp [UpdProps.independent, UpdProps.qualify, UpdProps.provided, hlen]
      | false =>
        cases B with
        | true => simp [UpdProps.independent, UpdProps.qualify, UpdProps.provided]
        | false =>
          simp [UpdProps.independent, UpdProps.qualify, UpdProps.provided, validate, UpdProps.nElements, bind,
            Except.bind, sequence]

theorem applySeq_congr (cl : CompClass) (us vs : List cl.U) (hl : us.length = vs.length)
    (h : ∀ (k : Nat) u v c, us[k]? = some u → vs[k]? = some v → cl.update c u = cl.update c v) (cs : List cl.C)
    (seq : List Nat) : applySeq cl cs us seq = applySeq cl cs vs seq := by
  induction us generalizing vs cs seq with
  | nil => cases vs with
    | nil => rfl
    | cons v vs => simp at hl
  | cons u us ih => cases vs with
    | nil => simp at hl
    | cons v vs =>
      cases seq with
      | nil => rfl
      | cons i is =>
        unfold applySeq
        cases hc : cs[i]? with
        | none => rfl
        | some c =>
          simp only
          rw [h 0 u v c (by simp) (by simp), ih vs (by simpa using hl) (fun k u v c hu hv =>
            h (k + 1) u v c (by simpa using hu) (by simpa using hv))]

theorem mapM_range (m : Grid K) (hc : Consistent m) (t : CompType) (us : List (classOf K t).U)
    (hl : us.length = (m.comps t).length)
    (h : ∀ (k : Nat) u c, us[k]? = some u → (m.comps t)[k]? = some c → (classOf K t).uid u = (classOf K t).cid c) :
    us.mapM (fun u => idxById m.index t ((classOf K t).uid u)) = .ok (List.range us.length) := by
  have hidx : ∀ (k : Nat) u, us[k]? = some u → m.index ((classOf K t).uid u) = some (t, k) := by
    intro k u hu
    have hk : k < (m.comps t).length := by rw [← hl]; exact (List.getElem?_eq_some_iff.mp hu).1
    have hck : (m.comps t)[k]? = some (m.comps t)[k] := by simp [hk]
    exact (hc _ t k).mpr ⟨_, hck, (h k u _ hu hck).symm⟩
  obtain ⟨l, hl'⟩ := mapM_idx_known m.index t us (by
    intro u hu
    obtain ⟨k, hk, he⟩ := List.getElem_of_mem hu
    exact ⟨k, hidx k u (by rw [List.getElem?_eq_getElem hk, he])⟩)
  rw [hl']
  obtain ⟨h1, h2⟩ := mapM_idx m.index t us l hl'
  congr 1
  apply List.ext_getElem?
  intro k
  by_cases hk : k < us.length
  · obtain ⟨j, hj1, hj2⟩ := h2 k us[k] (by simp [hk])
    rw [hidx k us[k] (by simp [hk])] at hj2
    simp only [Option.some.injEq, Prod.mk.injEq, true_and] at hj2
    rw [hj1, ← hj2]
    simp [hk]
  · rw [List.getElem?_eq_none (by omega), List.getElem?_eq_none (by simp; omega)]

/-- C09. Omitting all IDs of a type is the same as naming the IDs of the components in their order: the resulting model and
the outcome are the same. -/
theorem positional_equals_named (d d' : Dataset (classOf K)) (m : Grid K) (hc : Consistent m)
    (hids : ∀ t, ∀ c ∈ m.comps t, (classOf K t).cid c ≠ -2147483648) (hn : NamedVersion m d d') :
    permanentUpdate allTypes d m = permanentUpdate allTypes d' m := by
  have huid : ∀ t u i, (classOf K t).uid ((classOf K t).withId u i) = i := fun t => (lawfulOf (K := K) t).uid_withId
  -- the elements correspond
  have hel : ∀ t, (given1 d t).length = (given1 d' t).length ∧
      ∀ (k : Nat) u v c, (given1 d t)[k]? = some u → (given1 d' t)[k]? = some v →
        (classOf K t).update c u = (classOf K t).update c v := by
    intro t
    rcases hn t with he | ⟨hna, hlen, he⟩
    · rw [he]
      refine ⟨rfl, ?_⟩
      intro k u v c hu hv
      rw [hu] at hv; cases hv; rfl
    · rw [he]
      refine ⟨by rw [List.length_zipWith]; omega, ?_⟩
      intro k u v c hu hv
      rw [List.getElem?_zipWith] at hv
      rw [hu] at hv
      cases hck : (m.comps t)[k]? with
      | none => simp [hck] at hv
      | some ck =>
        simp only [hck, Option.some.injEq] at hv
        rw [← hv, (lawfulOf (K := K) t).update_withId]
  -- the sequences are the same
  have hseq : ∀ t, sequenceOf m.index (d.single 0) 0 (allProps (d.single 0) m t) false t =
      sequenceOf m.index (d'.single 0) 0 (allProps (d'.single 0) m t) false t := by
    intro t
    rw [sequenceOf_single, sequenceOf_single]
    rcases hn t with he | ⟨hna, hlen, he⟩
    · rw [he]
    · have h1 : (given1 d t).all (fun u => (classOf K t).uid u = -2147483648) = true := by
        simp only [List.all_eq_true, decide_eq_true_eq]; exact hna
      rw [if_pos h1, if_pos hlen]
      have hl' : (given1 d' t).length = (m.comps t).length := by rw [← (hel t).1]; exact hlen
      have hmem : ∀ v ∈ given1 d' t, (classOf K t).uid v ≠ -2147483648 := by
        rw [he]
        intro v hv
        obtain ⟨k, hk, hkv⟩ := List.getElem_of_mem hv
        rw [List.getElem_zipWith] at hkv
        rw [← hkv, huid]
        exact hids t _ (List.getElem_mem _)
      have h3 : (given1 d' t).any (fun u => (classOf K t).uid u = -2147483648) = false := by
        simp only [List.any_eq_false, decide_eq_true_eq]
        exact hmem
      by_cases h2 : (given1 d' t).all (fun u => (classOf K t).uid u = -2147483648) = true
      · rw [if_pos h2, if_pos hl', (hel t).1]
      · rw [if_neg h2, h3]
        simp only [Bool.false_eq_true, if_false]
        rw [mapM_range m hc t (given1 d' t) hl' (by
          intro k u c hu hck
          rw [he, List.getElem?_zipWith, hck] at hu
          have hk : k < (given1 d t).length := by rw [hlen]; exact (List.getElem?_eq_some_iff.mp hck).1
          rw [List.getElem?_eq_getElem hk] at hu
          simp only [Option.some.injEq] at hu
          rw [← hu, huid]), (hel t).1]
  unfold permanentUpdate
  simp only
  rw [sequenceMap_congr allTypes m.index (d.single 0) (d'.single 0) 0 _ _ false hseq]
  cases sequenceMap allTypes m.index (d'.single 0) 0 (allProps (d'.single 0) m) false with
  | error e => rfl
  | ok seq =>
    simp only [updateComponents]
    congr 1
    funext t m'
    simp only [updateType, Bool.false_eq_true, if_false, applyType]
    rw [applySeq_congr (classOf K t) ((d.single 0).span t 0) ((d'.single 0).span t 0) (hel t).1 (hel t).2]

/-- A permanent update stays: it leaves nothing behind that a later restoration could undo. -/
theorem permanent_update_pending (d : Dataset (classOf K)) (m : Grid K) :
    (permanentUpdate allTypes d m).1.pending = m.pending := by
  unfold permanentUpdate
  simp only
  cases hs : sequenceMap allTypes m.index (d.single 0) 0 (allProps (d.single 0) m) false with
  | error e' => rfl
  | ok seq =>
    simp only [updateComponents]
    have hloop : ∀ (ts : List CompType) (m' : Grid K), (forTypes (fun t => updateType false t ((d.single 0).span t 0)
        (seq t)) ts m').1.pending = m'.pending := by
      intro ts
      induction ts with
      | nil => intro m'; rfl
      | cons t ts ih =>
        intro m'
        simp only [forTypes]
        have hu : (updateType false t ((d.single 0).span t 0) (seq t) m').1.pending = m'.pending := by
          unfold updateType
          simp only [Bool.false_eq_true, if_false]
          exact (applyType_core _ _ _ _ _).2.2.1
        generalize updateType false t ((d.single 0).span t 0) (seq t) m' = x at hu
        obtain ⟨xm, xo⟩ := x
        simp only at hu
        cases xo with
        | done => exact (ih xm).trans hu
        | raised e' => exact hu
        | undefined => exact hu
    exact hloop allTypes m

/-! ## C48: rejected updates -/

/-- C48, what holds: a permanent update that is rejected because of its IDs leaves the model exactly as it was. Missing: the
same for updates that the consistency check of a fault refuses (`rejected_update_unchanged_false`). -/
theorem rejected_update_unchanged_partial (d : Dataset (classOf K)) (m : Grid K) (e : UErr)
    (h : (permanentUpdate allTypes d m).2 = .raised e) (he : e ≠ .invalidFault) :
    (permanentUpdate allTypes d m).1 = m := by
  unfold permanentUpdate at h ⊢
  simp only at h ⊢
  cases hs : sequenceMap allTypes m.index (d.single 0) 0 (allProps (d.single 0) m) false with
  | error e' => rfl
  | ok seq =>
    exfalso
    simp only [hs, updateComponents] at h
    have hloop : ∀ (ts : List CompType) (m' : Grid K),
        (forTypes (fun t => updateType false t ((d.single 0).span t 0) (seq t)) ts m').2 = .raised e → False := by
      intro ts
      induction ts with
      | nil => intro m' h; simp [forTypes] at h
      | cons t ts ih =>
        intro m' h
        simp only [forTypes] at h
        have hu : ∀ e', (updateType false t ((d.single 0).span t 0) (seq t) m').2 = .raised e' → e' = .invalidFault := by
          intro e' he'
          unfold updateType at he'
          simp only [Bool.false_eq_true, if_false] at he'
          rw [(applyType_core _ _ _ _ _).2.2.2] at he'
          exact (applySeq_raised _ _ _ _ he').1
        generalize updateType false t ((d.single 0).span t 0) (seq t) m' = x at h hu
        obtain ⟨xm, xo⟩ := x
        cases xo with
        | done => exact ih xm h
        | raised e' =>
          simp only [Outcome.raised.injEq] at h
          exact he (h ▸ hu e' rfl)
        | undefined => simp at h
    exact hloop allTypes m h

/-- A grid with a line and a three-phase fault. -/
def exFaultGrid : Grid ℚ where
  comps := fun t => match t with
    | .line => ([⟨⟨2⟩, true, true⟩] : List Branch)
    | .fault => ([⟨⟨7⟩, true, 0, 0, 1, none, none⟩] : List (Fault ℚ))
    | _ => []
  index := fun id => if id = 2 then some (.line, 0) else if id = 7 then some (.fault, 0) else none
  pending := fun _ => []
  cachedChange := ⟨false, false⟩
  status := ⟨false, false, false, none, fun _ => []⟩

/-- Opens the line and makes the fault single-phase while it stays on phases abc. -/
def exFaultUpdate : Dataset (classOf ℚ) where
  n := 1
  has := fun t => t == .line || t == .fault
  elems := fun t _ => match t with
    | .line => ([⟨2, 0, 0⟩] : List BranchUpdate)
    | .fault => ([⟨7, -128, 1, -128, -2147483648, none, none⟩] : List (FaultUpdate ℚ))
    | _ => []

/-- C48 is false of the code: the update is rejected, but the line has been opened and the fault has the refused
combination of type and phase. -/
theorem rejected_update_unchanged_false :
    (permanentUpdate allTypes exFaultUpdate exFaultGrid).2 = .raised .invalidFault ∧
    ((permanentUpdate allTypes exFaultUpdate exFaultGrid).1.comps .line : List Branch) = [⟨⟨2⟩, false, false⟩] ∧
    ((permanentUpdate allTypes exFaultUpdate exFaultGrid).1.comps .fault : List (Fault ℚ)) =
      [⟨⟨7⟩, true, 1, 0, 1, none, none⟩] := by
  exact ⟨rfl, rfl, rfl⟩

/-! ## A concrete case -/

/-- A grid with a node, two lines, a transformer and a load of 1000 W. -/
def exGrid : Grid ℚ where
  comps := fun t => match t with
    | .node => ([1] : List Int)
    | .line => ([⟨⟨2⟩, true, true⟩, ⟨⟨3⟩, true, false⟩] : List Branch)
    | .transformer => ([⟨⟨4, -2, 5⟩, true, true, 3⟩] : List Transformer)
    | .symLoad => ([⟨⟨5, -1, 1000000⟩, true, fun _ => some (-1/1000), fun _ => none⟩] : List (LoadGen 1 ℚ))
    | .asymLine | .link | .genericBranch | .threeWindingTransformer | .shunt | .source | .symGen | .asymGen | .asymLoad
    | .symPowerSensor | .asymPowerSensor | .symVoltageSensor | .asymVoltageSensor | .symCurrentSensor
    | .asymCurrentSensor | .fault | .tapRegulator | .voltageRegulator => []
  index := fun id =>
    if id = 1 then some (.node, 0) else if id = 2 then some (.line, 0) else if id = 3 then some (.line, 1)
    else if id = 4 then some (.transformer, 0) else if id = 5 then some (.symLoad, 0) else none
  pending := fun _ => []
  cachedChange := ⟨false, false⟩
  status := ⟨false, false, false, none, fun _ => []⟩


theorem exGrid_consistent : Consistent exGrid := by
  intro id t j
  constructor
  · intro h
    simp only [exGrid] at h
    split_ifs at h <;>
      (simp only [Option.some.injEq, Prod.mk.injEq] at h; obtain ⟨rfl, rfl⟩ := h; subst id; exact ⟨_, rfl, rfl⟩)
  · rintro ⟨c, hc, rfl⟩
    cases t <;> rcases j with _ | _ | j <;> first | (cases hc; done) | (cases hc; rfl)

/-- Two scenarios. The first opens line 3, by ID, and sets the tap of transformer 4 to 9 (outside of its range). The second
changes both lines, now by IDs in the other order, and line 2 twice. Both give the active power of the load without an ID. -/
def exData : Dataset (classOf ℚ) where
  n := 2
  has := fun t => t == .line || t == .transformer || t == .symLoad
  elems := fun t s => match t, s with
    | .line, 0 => ([⟨3, 0, -128⟩] : List BranchUpdate)
    | .line, 1 => ([⟨3, -128, 1⟩, ⟨2, 0, 0⟩, ⟨2, -128, 1⟩] : List BranchUpdate)
    | .transformer, 0 => ([⟨4, -128, -128, 9⟩] : List TransformerUpdate)
    | .symLoad, 0 => ([⟨-2147483648, -128, fun _ => some 2000, fun _ => none⟩] : List (LoadGenUpdate 1 ℚ))
    | .symLoad, 1 => ([⟨-2147483648, 0, fun _ => some 3000, fun _ => none⟩] : List (LoadGenUpdate 1 ℚ))
    | _, _ => []

/-- `permanent_update_effect`, `permanent_update_accepted`: the first scenario as a permanent update. -/
example : (permanentUpdate allTypes exData exGrid).2 = .done := by rfl
example : ((permanentUpdate allTypes exData exGrid).1.comps .transformer : List Transformer) =
    [⟨⟨4, -2, 5⟩, true, true, 5⟩] := by rfl
example : ((permanentUpdate allTypes exData exGrid).1.comps .line : List Branch) =
    [⟨⟨2⟩, true, true⟩, ⟨⟨3⟩, false, false⟩] := by rfl
example : addressed (classOf ℚ .line) (given1 exData .line) 1 (⟨⟨3⟩, true, false⟩ : Branch) = given1 exData .line := by rfl

/-- An update that names the ID of a line in an element for links. -/
def exWrongType : Dataset (classOf ℚ) where
  n := 1
  has := fun t => t == .link
  elems := fun t _ => match t with
    | .link => ([⟨2, 0, 0⟩] : List BranchUpdate)
    | _ => []

/-- `permanent_update_unknown_id`. -/
example : (permanentUpdate allTypes exWrongType exGrid).2 = .raised (.idWrongType 2) := by rfl

/-- An update of lines with one ID omitted. -/
def exMixed : Dataset (classOf ℚ) where
  n := 1
  has := fun t => t == .line
  elems := fun t _ => match t with
    | .line => ([⟨2, 0, 0⟩, ⟨-2147483648, 0, 0⟩] : List BranchUpdate)
    | _ => []

/-- `permanent_update_bad_shape_undefined`. -/
example : (permanentUpdate allTypes exMixed exGrid).2 = .undefined := by rfl

/-- The lines of `exGrid` without IDs, and the same with IDs. -/
def exUnnamed : Dataset (classOf ℚ) where
  n := 1
  has := fun t => t == .line
  elems := fun t _ => match t with
    | .line => ([⟨-2147483648, 0, 1⟩, ⟨-2147483648, -128, 1⟩] : List BranchUpdate)
    | _ => []

def exNamed : Dataset (classOf ℚ) where
  n := 1
  has := fun t => t == .line
  elems := fun t _ => match t with
    | .line => ([⟨2, 0, 1⟩, ⟨3, -128, 1⟩] : List BranchUpdate)
    | _ => []

/-- `positional_equals_named`. -/
example : NamedVersion exGrid exUnnamed exNamed := by
  intro t
  cases t <;> first | exact Or.inl rfl | skip
  refine Or.inr ⟨?_, rfl, rfl⟩
  intro u hu
  simp only [given1, Dataset.span, exUnnamed] at hu
  rcases hu with _ | ⟨_, _ | ⟨_, _ | _⟩⟩ <;> rfl

example : ((permanentUpdate allTypes exUnnamed exGrid).1.comps .line : List Branch) =
    [⟨⟨2⟩, false, true⟩, ⟨⟨3⟩, true, true⟩] := by rfl

/-- `update_sets_given`: a transformer whose tap is set beyond its range while its statuses are omitted. -/
example : ((classOf ℚ .transformer).update (⟨⟨4, -2, 5⟩, true, false, 3⟩ : Transformer)
    (⟨4, -128, -128, 9⟩ : TransformerUpdate)).1 = (⟨⟨4, -2, 5⟩, true, false, 5⟩ : Transformer) := by rfl

end PGM.Update
