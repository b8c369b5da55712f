import Verif.Update.Props

/-!
# Property C08 and the batch part of C09: scenario updates are applied and restored
-/

set_option linter.unusedSectionVars false

namespace PGM.Update

variable {K : Type} [Field K] [DecidableEq K]

/-! ## Specification -/

/-- A model between two calculations: no scenario update is pending. -/
def Settled (m : Grid K) : Prop := Consistent m ∧ WellFormed m ∧ ∀ t, m.pending t = []

/-- A dataset has no elements outside of its scenarios. -/
def Dataset.Bounded (d : Dataset (classOf K)) : Prop := 0 < d.n ∧ ∀ t s, d.n ≤ s → d.elems t s = []

/-- Regulator updates name the status (see `tapRegulator_omitted_status`). -/
def StatusGiven (d : Dataset (classOf K)) (s : Nat) : Prop := ∀ t, ∀ u ∈ d.span t s, (schemaOf K t).full u

/-- Scenario `s` gives no value for an attribute that has no value (NaN) in the model. -/
def Restorable (m : Grid K) (d : Dataset (classOf K)) (s : Nat) : Prop :=
  ∀ t (k : Nat) b, (m.comps t)[k]? = some b → ∀ u ∈ addressed (classOf K t) (d.span t s) k b,
    ∀ a, (schemaOf K t).given u a ≠ none → (schemaOf K t).value b a ≠ none

/-! ## Lemmas -/

/-- The sequence view of scenario `s`. -/
theorem view_ok (m : Grid K) (hc : Consistent m) (d : Dataset (classOf K)) (hd : d.Bounded) (p : Plan (classOf K))
    (hp : prepare allTypes d m = .ok p) (s : Nat) (cur : CompType → List Nat)
    (hcur : sequenceMap allTypes m.index p.d s p.props true = .ok cur) :
    p.d = d ∧ ∀ t, (d.span t s).length ≤ (p.view cur t).length ∧
      (∀ u i, (u, i) ∈ (d.span t s).zip (p.view cur t) → i < (m.comps t).length) ∧
      (∀ (j : Nat) c, (m.comps t)[j]? = some c →
        hits (d.span t s) (p.view cur t) j = addressed (classOf K t) (d.span t s) j c) := by
  unfold prepare at hp
  cases hs : sequenceMap allTypes m.index d 0 (allProps d m) false with
  | error e => simp [hs] at hp
  | ok all =>
    simp only [hs, Except.ok.injEq] at hp
    subst hp
    refine ⟨rfl, ?_⟩
    intro t
    simp only at hcur
    by_cases hsn : s < d.n
    · have h1 := sequenceMap_ok allTypes allTypes_nodup _ _ _ _ _ all hs t (mem_allTypes t)
      have h2 := sequenceMap_ok allTypes allTypes_nodup _ _ _ _ _ cur hcur t (mem_allTypes t)
      have hg := batch_good m.index d t (m.comps t).length (all t) (cur t) hd.1 h1 s hsn h2
      have hv : Plan.view ⟨d, allProps d m, all⟩ cur t =
          if (checkIndependence d t (m.comps t).length).independent then all t else cur t := rfl
      rw [hv]
      exact ⟨by rw [hg.1], good_range m hc t _ _ hg, good_hits m hc t _ _ hg⟩
    · have hsp : d.span t s = [] := by
        unfold Dataset.span
        split
        · exact hd.2 t s (by omega)
        · rfl
      rw [hsp]
      refine ⟨by simp, by simp, ?_⟩
      intro j c _
      simp [hits, addressed]

theorem mem_hits {cl : CompClass} (us : List cl.U) (seq : List Nat) (u : cl.U) (i : Nat) :
    u ∈ hits us seq i ↔ (u, i) ∈ us.zip seq := by
  simp [hits]

/-- The state of a worker in which the components equal those of `m`. -/
structure AtRest (m : Grid K) (j : Job (classOf K)) : Prop where
  comps : j.model.comps = m.comps
  index : j.model.index = m.index
  pending : ∀ t, j.model.pending t = []

/-- The state of a worker in which a scenario is (partly) applied; `N` are attributes whose original value is lost. -/
structure Applied (m : Grid K) (p : Plan (classOf K)) (N : ∀ t, Nat → (schemaOf K t).Attr → Prop)
    (j : Job (classOf K)) : Prop where
  index : j.model.index = m.index
  cov : ∀ t, Cov (schemaOf K t) (m.comps t) (p.view j.cur t) (N t) (j.model.comps t) (j.model.pending t)

/-- The attributes without a value in the model for which scenario `s` gives one. -/
def Lost (m : Grid K) (d : Dataset (classOf K)) (s : Nat) (t : CompType) (k : Nat) (a : (schemaOf K t).Attr) : Prop :=
  ∃ b, (m.comps t)[k]? = some b ∧ (schemaOf K t).value b a = none ∧
    ∃ u ∈ addressed (classOf K t) (d.span t s) k b, (schemaOf K t).given u a ≠ none

theorem setup_applied (m : Grid K) (hm : Settled m) (d : Dataset (classOf K)) (hd : d.Bounded) (p : Plan (classOf K))
    (hp : prepare allTypes d m = .ok p) (s : Nat) (hf : StatusGiven d s) (j : Job (classOf K)) (hj : AtRest m j) :
    (setup allTypes p s j).2 ≠ .undefined ∧ Applied m p (Lost m d s) (setup allTypes p s j).1 := by
  obtain ⟨hc, hw, _⟩ := hm
  have hrest : ∀ cur, Applied m p (Lost m d s) ⟨j.model, cur⟩ := by
    intro cur
    refine ⟨hj.index, ?_⟩
    intro t
    rw [hj.comps, hj.pending t]
    exact Cov.start (schemaOf K t) (m.comps t) _ _ (hw t)
  unfold setup
  rw [hj.index]
  cases hs : sequenceMap allTypes m.index p.d s p.props true with
  | error e => exact ⟨by simp, hrest j.cur⟩
  | ok cur =>
    obtain ⟨hpd, hv⟩ := view_ok m hc d hd p hp s cur hs
    simp only [updateComponents, hpd]
    obtain ⟨h1, h2, h3⟩ := forTypes_update_cov (fun t => schemaOf K t) (fun t => lawfulOf t) m.comps hw
      (fun t => d.span t s) (p.view cur) (Lost m d s) (fun t => (hv t).1) (fun t => (hv t).2.1)
      (fun t u i h => hf t u (List.of_mem_zip h).1)
      (fun t u i b h hb a ha hn => ⟨b, hb, hn, u, by
        rw [← (hv t).2.2 i b hb, mem_hits]; exact h, ha⟩)
      allTypes allTypes_nodup j.model (fun t _ => ⟨by rw [hj.comps], hj.pending t⟩) (hrest cur).cov
    exact ⟨h1, ⟨h2.trans hj.index, h3⟩⟩

theorem winddown_applied (m : Grid K) (hw : WellFormed m) (p : Plan (classOf K))
    (N : ∀ t, Nat → (schemaOf K t).Attr → Prop) (j : Job (classOf K)) (hj : Applied m p N j) :
    (winddown allTypes p j).2 ≠ .undefined ∧
    ((winddown allTypes p j).2 ≠ .done → Applied m p N (winddown allTypes p j).1) ∧
    ((winddown allTypes p j).2 = .done →
      (winddown allTypes p j).1.model.index = m.index ∧
      ∀ t, (winddown allTypes p j).1.model.pending t = [] ∧
        Toward (schemaOf K t) (m.comps t) ((winddown allTypes p j).1.model.comps t) (N t)) := by
  obtain ⟨h1, h2, h3, h4, h5⟩ := forTypes_restore_cov (fun t => schemaOf K t) (fun t => lawfulOf t) m.comps hw
    (p.view j.cur) N allTypes allTypes_nodup j.model hj.cov
  unfold winddown restoreComponents
  generalize forTypes (fun t => restoreType t (p.view j.cur t)) allTypes j.model = x at h1 h2 h3 h4 h5
  obtain ⟨xm, xo⟩ := x
  simp only at h1 h2 h3 h4 h5
  cases xo with
  | done =>
    refine ⟨by simp, by simp, ?_⟩
    intro _
    refine ⟨h2.trans hj.index, ?_⟩
    intro t
    obtain ⟨h6, h7⟩ := h5 rfl t (mem_allTypes t)
    exact ⟨h7, h6⟩
  | raised e =>
    refine ⟨by simp, ?_, by simp⟩
    intro _
    exact ⟨h2.trans hj.index, h3⟩
  | undefined => exact absurd rfl h1

theorem no_lost (m : Grid K) (d : Dataset (classOf K)) (s : Nat) (h : Restorable m d s) (t : CompType) (k : Nat)
    (a : (schemaOf K t).Attr) : ¬ Lost m d s t k a := by
  rintro ⟨b, hb, hn, u, hu, hg⟩
  exact h t k b hb u hu a hg hn

/-! ## C09, batch part -/

/-- C09 for scenarios: once the set-up of scenario `s` completes, every component has been updated with exactly the elements
of scenario `s` that address it. -/
theorem scenario_effect (m : Grid K) (hm : Settled m) (d : Dataset (classOf K)) (hd : d.Bounded) (p : Plan (classOf K))
    (hp : prepare allTypes d m = .ok p) (s : Nat) (j : Job (classOf K)) (hj : AtRest m j)
    (h : (setup allTypes p s j).2 = .done) (t : CompType) (k : Nat) :
    ((setup allTypes p s j).1.model.comps t)[k]? =
      (m.comps t)[k]?.map (fun c =>
        (addressed (classOf K t) (d.span t s) k c).foldl (fun c u => ((classOf K t).update c u).1) c) := by
  obtain ⟨hc, hw, _⟩ := hm
  unfold setup at h ⊢
  rw [hj.index] at h ⊢
  cases hs : sequenceMap allTypes m.index p.d s p.props true with
  | error e => simp [hs] at h
  | ok cur =>
    obtain ⟨hpd, hv⟩ := view_ok m hc d hd p hp s cur hs
    simp only [hs] at h ⊢
    simp only [updateComponents, hpd] at h ⊢
    obtain ⟨_, _, _, i4⟩ := forTypes_update_done true (fun t => d.span t s) (p.view cur) allTypes allTypes_nodup j.model
    obtain ⟨ha, hb⟩ := i4 h t (mem_allTypes t)
    rw [hb, applySeq_done _ _ _ ha, hj.comps]
    cases hk : (m.comps t)[k]? with
    | none => rfl
    | some c =>
      simp only [Option.map_some]
      rw [(hv t).2.2 k c hk]

/-- C09 for scenarios: a scenario that is rejected because of its IDs (unknown, of another type, partly omitted, or omitted
with the wrong number of elements) leaves the components unchanged. -/
theorem scenario_rejected_unchanged (p : Plan (classOf K)) (s : Nat) (j : Job (classOf K)) (e : UErr)
    (h : (setup allTypes p s j).2 = .raised e) (he : e ≠ .invalidFault) : (setup allTypes p s j).1.model = j.model := by
  unfold setup at h ⊢
  cases hs : sequenceMap allTypes j.model.index p.d s p.props true with
  | error e' => rfl
  | ok cur =>
    exfalso
    simp only [hs, updateComponents] at h
    have hloop : ∀ (ts : List CompType) (m' : Grid K),
        (forTypes (fun t => updateType true t (p.d.span t s) (p.view cur t)) ts m').2 = .raised e → False := by
      intro ts
      induction ts with
      | nil => intro m' h; simp [forTypes] at h
      | cons t ts ih =>
        intro m' h
        simp only [forTypes] at h
        have hu : ∀ e', (updateType true t (p.d.span t s) (p.view cur t) m').2 = .raised e' → e' = .invalidFault := by
          intro e' he'
          unfold updateType at he'
          simp only [if_true] at he'
          cases hi : inverses (classOf K t) (m'.comps t) (p.d.span t s) (p.view cur t) with
          | none => simp [hi] at he'
          | some inv =>
            simp only [hi] at he'
            rw [(applyType_core _ _ _ _ _).2.2.2] at he'
            exact (applySeq_raised _ _ _ _ he').1
        generalize updateType true t (p.d.span t s) (p.view cur t) m' = x at h hu
        obtain ⟨xm, xo⟩ := x
        cases xo with
        | done => exact ih xm h
        | raised e' =>
          simp only [Outcome.raised.injEq] at h
          exact he (h ▸ hu e' rfl)
        | undefined => simp at h
    exact hloop allTypes j.model h

/-- In a batch the shape of the IDs is checked: the set-up of a scenario never reads outside of an array (compare
`permanent_update_bad_shape_undefined`). -/
theorem scenario_defined (m : Grid K) (hm : Settled m) (d : Dataset (classOf K)) (hd : d.Bounded) (p : Plan (classOf K))
    (hp : prepare allTypes d m = .ok p) (s : Nat) (hf : StatusGiven d s) (j : Job (classOf K)) (hj : AtRest m j) :
    (setup allTypes p s j).2 ≠ .undefined := (setup_applied m hm d hd p hp s hf j hj).1

/-! ## C08 -/

/-- C08, exactly what holds: after a scenario has been applied (completely, or until an exception) and restored, every
attribute of every component has its original value again, except possibly attributes that had no value (NaN) in the model
and got one from the scenario. The updates of the scenario may address components repeatedly and give any subset of the
attributes (for regulators including the status). -/
theorem scenario_restored_partial (m : Grid K) (hm : Settled m) (d : Dataset (classOf K)) (hd : d.Bounded)
    (p : Plan (classOf K)) (hp : prepare allTypes d m = .ok p) (s : Nat) (hf : StatusGiven d s) (j : Job (classOf K))
    (hj : AtRest m j) (h : (winddown allTypes p (setup allTypes p s j).1).2 = .done) :
    ∀ t (k : Nat) b, (m.comps t)[k]? = some b →
      ∃ c, ((winddown allTypes p (setup allTypes p s j).1).1.model.comps t)[k]? = some c ∧
        (schemaOf K t).fixed c = (schemaOf K t).fixed b ∧
        ∀ a, (schemaOf K t).value c a = (schemaOf K t).value b a ∨
          ((schemaOf K t).value b a = none ∧
            ∃ u ∈ addressed (classOf K t) (d.span t s) k b, (schemaOf K t).given u a ≠ none) := by
  obtain ⟨_, h2⟩ := setup_applied m hm d hd p hp s hf j hj
  obtain ⟨_, _, h5⟩ := winddown_applied m hm.2.1 p (Lost m d s) _ h2
  obtain ⟨_, h6⟩ := h5 h
  intro t k b hb
  have hlen := (h6 t).2.len
  have hk : k < ((winddown allTypes p (setup allTypes p s j).1).1.model.comps t).length := by
    rw [hlen]; exact (List.getElem?_eq_some_iff.mp hb).1
  refine ⟨_, List.getElem?_eq_getElem hk, ?_⟩
  obtain ⟨e1, _, e3⟩ := (h6 t).2.at_ k b _ hb (List.getElem?_eq_getElem hk)
  refine ⟨e1, fun a => (e3 a).imp id ?_⟩
  rintro ⟨b', hb', hn, u, hu, hg⟩
  rw [hb] at hb'
  cases hb'
  exact ⟨hn, u, hu, hg⟩

/-- C08. If in addition the scenario gives no value for an attribute that has none in the model, the components are exactly
those of the model again. -/
theorem scenario_restored (m : Grid K) (hm : Settled m) (d : Dataset (classOf K)) (hd : d.Bounded)
    (p : Plan (classOf K)) (hp : prepare allTypes d m = .ok p) (s : Nat) (hf : StatusGiven d s) (hr : Restorable m d s)
    (j : Job (classOf K)) (hj : AtRest m j) (h : (winddown allTypes p (setup allTypes p s j).1).2 = .done) :
    AtRest m (winddown allTypes p (setup allTypes p s j).1).1 := by
  obtain ⟨_, h2⟩ := setup_applied m hm d hd p hp s hf j hj
  obtain ⟨_, _, h5⟩ := winddown_applied m hm.2.1 p (Lost m d s) _ h2
  obtain ⟨h6, h7⟩ := h5 h
  refine ⟨?_, h6, fun t => (h7 t).1⟩
  funext t
  exact ((h7 t).2.mono (fun k a hl => no_lost m d s hr t k a hl)).eq (lawfulOf t)

/-- Why the restriction is needed: in every component type an attribute without a value that a scenario sets keeps the
scenario's value after the restoration. -/
theorem nan_value_not_restored (t : CompType) (c : (classOf K t).C) (u : (classOf K t).U) (a : (schemaOf K t).Attr)
    (v : Val K) (hw : (schemaOf K t).wf c) (hf : (schemaOf K t).full u) (hn : (schemaOf K t).value c a = none)
    (hg : (schemaOf K t).given u a = some v) :
    (schemaOf K t).value
      ((classOf K t).update ((classOf K t).update c u).1 ((classOf K t).inverse c u)).1 a =
        some ((schemaOf K t).accept c a v) := by
  have L := lawfulOf (K := K) t
  rw [L.sets _ _ (L.wf_update c u hw) (L.inv_full c u hf) a, L.inv_given c u a hw, hg]
  simp only [hn]
  rw [L.sets c u hw hf a, hg]

/-- A scenario that omits the status of a disabled regulator leaves the regulator switched on after the restoration. -/
theorem regulator_not_restored (c : TapRegulator K) (u : TapRegulatorUpdate K) (h : u.status = -128) :
    (tapRegulatorSchema K).value
      ((tapRegulatorClass K).update ((tapRegulatorClass K).update c u).1 ((tapRegulatorClass K).inverse c u)).1
      .status = some (.flag true) := by
  simp [tapRegulatorSchema, tapRegulatorClass, TapRegulator.update, TapRegulator.inverse, setIfNotNanI, h, naIntS, toBool]

/-! ## The batch calculation as a whole -/

/-- The text of an exception. -/
def UErr.text : UErr → String
  | .idNotFound id => s!"The id cannot be found: {id}"
  | .idWrongType id => s!"Wrong type for object with id {id}"
  | .dataset msg => msg
  | .invalidFault => "short circuit type and phase do not match"

def Outcome.exn : Outcome → Option Batch.Exn
  | .done => none
  | .raised e => some (.std e.text)
  | .undefined => some .other

/-- The job adapter of a batch calculation, `P/job_adapter.hpp`: `compute` is the calculation as a function of the components
(that it does not depend on the caches is property C11), `touch` what it does to the caches. -/
def adapter {ο : Type} (p : Plan (classOf K)) (m : Grid K)
    (compute : (∀ t, List (classOf K t).C) → Option ο × Option Batch.Exn) (touch : Grid K → Grid K) :
    Batch.Adapter (Job (classOf K)) ο where
  base := ⟨m, fun _ => []⟩
  setup := fun s j => ((setup allTypes p s j).1, (setup allTypes p s j).2.exn)
  run := fun _ j => (⟨touch j.model, j.cur⟩, compute j.model.comps)
  winddown := fun j => ((winddown allTypes p j).1, (winddown allTypes p j).2.exn)

/-- The adapter meets the contract that the dispatcher relies on (`Batch.Faithful`), so that C07 (a scenario has the result
of its isolated calculation, whatever the other scenarios, their failures and the threads do) holds for it. -/
theorem adapter_faithful {ο : Type} (m : Grid K) (hm : Settled m) (d : Dataset (classOf K)) (hd : d.Bounded)
    (p : Plan (classOf K)) (hp : prepare allTypes d m = .ok p) (hf : ∀ s, StatusGiven d s)
    (hr : ∀ s, Restorable m d s) (compute : (∀ t, List (classOf K t).C) → Option ο × Option Batch.Exn)
    (touch : Grid K → Grid K)
    (ht : ∀ m, (touch m).comps = m.comps ∧ (touch m).index = m.index ∧ (touch m).pending = m.pending) :
    Batch.Faithful (adapter p m compute touch) (AtRest m) (Applied m p (fun _ _ _ => False)) := by
  have hap : ∀ s j, AtRest m j → Applied m p (fun _ _ _ => False) (setup allTypes p s j).1 := by
    intro s j hj
    obtain ⟨_, h2⟩ := setup_applied m hm d hd p hp s (hf s) j hj
    refine ⟨h2.index, fun t => ?_⟩
    obtain ⟨c1, c2, c3, c4⟩ := h2.cov t
    exact ⟨c1, c2, c3, c4.mono (fun k a => Or.imp id (fun hl => no_lost m d s (hr s) t k a hl))⟩
  have htouch : ∀ j, Applied m p (fun _ _ _ => False) j → Applied m p (fun _ _ _ => False) ⟨touch j.model, j.cur⟩ := by
    intro j hj
    obtain ⟨t1, t2, t3⟩ := ht j.model
    refine ⟨by simp only [t2]; exact hj.index, fun t => ?_⟩
    simp only [t1, t3]
    exact hj.cov t
  have hexn : ∀ o : Outcome, o.exn = none ↔ o = .done := by
    intro o; cases o <;> simp [Outcome.exn]
  have hwd : ∀ j, Applied m p (fun _ _ _ => False) j → (winddown allTypes p j).2 = .done →
      AtRest m (winddown allTypes p j).1 := by
    intro j hj h
    obtain ⟨_, _, h5⟩ := winddown_applied m hm.2.1 p _ j hj
    obtain ⟨h6, h7⟩ := h5 h
    exact ⟨funext fun t => (h7 t).2.eq (lawfulOf t), h6, fun t => (h7 t).1⟩
  -- the components and the outcome after set-up do not depend on the worker
  have hsame : ∀ s j, AtRest m j →
      SameCore (setup allTypes p s j).1.model (setup allTypes p s ⟨m, fun _ => []⟩).1.model ∧
      (setup allTypes p s j).2 = (setup allTypes p s ⟨m, fun _ => []⟩).2 ∧
      ((setup allTypes p s j).2 = .done →
        (setup allTypes p s j).1.cur = (setup allTypes p s ⟨m, fun _ => []⟩).1.cur) := by
    intro s j hj
    have hcore : SameCore j.model m := ⟨hj.comps, hj.index, funext fun t => by rw [hj.pending t, hm.2.2 t]⟩
    unfold setup
    rw [hj.index]
    simp only
    cases sequenceMap allTypes m.index p.d s p.props true with
    | error e => exact ⟨hcore, rfl, by simp⟩
    | ok cur =>
      simp only
      obtain ⟨h1, h2⟩ := forTypes_same (fun t => updateType true t (p.d.span t s) (p.view cur t))
        (fun t m m' h => updateType_same true t _ _ m m' h) allTypes j.model m hcore
      exact ⟨h1, h2, by simp⟩
  have hbase : AtRest m (⟨m, fun _ => []⟩ : Job (classOf K)) := ⟨rfl, rfl, hm.2.2⟩
  have hwsame : ∀ s j, AtRest m j → (setup allTypes p s j).2 = .done →
      (winddown allTypes p ⟨touch (setup allTypes p s j).1.model, (setup allTypes p s j).1.cur⟩).2 =
      (winddown allTypes p ⟨touch (setup allTypes p s ⟨m, fun _ => []⟩).1.model,
        (setup allTypes p s ⟨m, fun _ => []⟩).1.cur⟩).2 := by
    intro s j hj hdone
    obtain ⟨h1, _, h3⟩ := hsame s j hj
    have hcore : SameCore (touch (setup allTypes p s j).1.model)
        (touch (setup allTypes p s ⟨m, fun _ => []⟩).1.model) := by
      obtain ⟨a1, a2, a3⟩ := ht (setup allTypes p s j).1.model
      obtain ⟨b1, b2, b3⟩ := ht (setup allTypes p s ⟨m, fun _ => []⟩).1.model
      exact ⟨by rw [a1, b1, h1.comps], by rw [a2, b2, h1.index], by rw [a3, b3, h1.pending]⟩
    obtain ⟨_, h5⟩ := restoreComponents_same allTypes (p.view (setup allTypes p s j).1.cur) _ _ hcore
    unfold winddown
    simp only
    rw [h3 hdone] at h5 ⊢
    generalize restoreComponents allTypes _ (touch (setup allTypes p s j).1.model) = x at h5
    generalize restoreComponents allTypes _ (touch (setup allTypes p s ⟨m, fun _ => []⟩).1.model) = y at h5
    obtain ⟨xm, xo⟩ := x
    obtain ⟨ym, yo⟩ := y
    simp only at h5
    subst h5
    cases xo <;> rfl
  constructor
  · exact hbase
  · intro s a ha
    simp only [adapter]
    rw [(hsame s a ha).2.1]
  · intro s a ha _
    exact hap s a ha
  · intro s a ha _
    simp only [adapter]
    rw [(hsame s a ha).1.comps]
  · intro s a ha _ _
    exact htouch _ (hap s a ha)
  · intro s a ha hs _
    simp only [adapter] at hs ⊢
    rw [hwsame s a ha ((hexn _).mp hs)]
  · intro s a ha hs _ hw
    simp only [adapter] at hs hw ⊢
    exact hwd _ (htouch _ (hap s a ha)) ((hexn _).mp hw)
  · intro s a ha hs _ hw
    simp only [adapter] at hs hw ⊢
    obtain ⟨_, h4, _⟩ := winddown_applied m hm.2.1 p _ _ (htouch _ (hap s a ha))
    exact h4 (fun h => hw ((hexn _).mpr h))
  · intro a ha hw
    simp only [adapter] at hw ⊢
    exact hwd a ha ((hexn _).mp hw)

/-- C07 and C08 together for the component updates: in a finished batch every scenario has the output and message of its own
isolated calculation on the unmodified model. -/
theorem batch_of_updates {ο : Type} (m : Grid K) (hm : Settled m) (d : Dataset (classOf K)) (hd : d.Bounded)
    (p : Plan (classOf K)) (hp : prepare allTypes d m = .ok p) (hf : ∀ s, StatusGiven d s)
    (hr : ∀ s, Restorable m d s) (compute : (∀ t, List (classOf K t).C) → Option ο × Option Batch.Exn)
    (touch : Grid K → Grid K)
    (ht : ∀ m, (touch m).comps = m.comps ∧ (touch m).index = m.index ∧ (touch m).pending = m.pending)
    (threading : Int) (hw : Nat) (buf : Nat → ο) (schedule : List Nat)
    (hfin : (Batch.exec (adapter p m compute touch) (Batch.start (adapter p m compute touch) d.n threading hw buf)
      schedule).finished) :
    ∀ s, s < d.n →
      (Batch.exec (adapter p m compute touch) (Batch.start (adapter p m compute touch) d.n threading hw buf) schedule).sh.out s
        = (Batch.fresh (adapter p m compute touch) buf s).1 ∧
      (Batch.exec (adapter p m compute touch) (Batch.start (adapter p m compute touch) d.n threading hw buf) schedule).sh.msg s
        = (Batch.fresh (adapter p m compute touch) buf s).2 :=
  (Batch.batch_equals_isolated _ _ _ (adapter_faithful m hm d hd p hp hf hr compute touch ht) d.n hd.1 threading hw buf
    schedule hfin).1

/-! ## A concrete case

The grid and the two scenarios of `Verif.Update.Props` meet all hypotheses above. -/

theorem exGrid_settled : Settled exGrid := by
  refine ⟨exGrid_consistent, ?_, fun _ => rfl⟩
  intro t c hc
  cases t <;> first | trivial | (cases hc; done) | skip
  · rcases List.mem_singleton.mp hc with rfl
    exact ⟨⟨by decide, Or.inl ⟨by decide, by decide⟩⟩, by decide, by decide⟩
  · rcases List.mem_singleton.mp hc with rfl
    exact ⟨by norm_num, by norm_num⟩

theorem exData_bounded : exData.Bounded := by
  refine ⟨by decide, ?_⟩
  intro t s hs
  match s, hs with
  | s + 2, _ => cases t <;> rfl

theorem exData_status : ∀ s, StatusGiven exData s := by
  intro s t u hu
  cases t <;> trivial

def exPlan : Plan (classOf ℚ) :=
  (prepare allTypes exData exGrid).toOption.getD ⟨exData, fun _ => checkIndependence exData .line 0, fun _ => []⟩
theorem exPlan_ok : prepare allTypes exData exGrid = .ok exPlan := by rfl

theorem exData_restorable : ∀ s, Restorable exGrid exData s := by
  intro s t k b hb u hu a ha
  cases t <;> try (cases hb)
  · nomatch a
  · cases a <;> simp [schemaOf, branchSchema]
  · cases a <;> simp [schemaOf, transformerSchema]
  · rcases k with _ | k
    · cases hb
      rcases s with _ | _ | s
      · rcases List.mem_singleton.mp hu with rfl
        cases a <;> first | exact absurd rfl ha | simp [schemaOf, loadGenSchema, givenReal]
      · rcases List.mem_singleton.mp hu with rfl
        cases a <;> first | exact absurd rfl ha | simp [schemaOf, loadGenSchema, givenReal]
      · cases hu
    · cases hb

example : (setup allTypes exPlan 1 ⟨exGrid, fun _ => []⟩).2 = .done := by rfl
example : (winddown allTypes exPlan (setup allTypes exPlan 1 ⟨exGrid, fun _ => []⟩).1).2 = .done := by rfl
example : ((setup allTypes exPlan 1 ⟨exGrid, fun _ => []⟩).1.model.comps .line : List Branch) =
   [⟨⟨2⟩, false, true⟩, ⟨⟨3⟩, true, true⟩] := by rfl

end PGM.Update
