import Verif.Cache.Model

/-!
# Invariants of components over histories of a model

Helper lemmas: what every update of a component preserves holds after every history of permanent updates, batch scenarios,
restorations, optimizer updates and calculations.
-/

set_option linter.unusedSectionVars false

namespace PGM.Component

open PGM.Update PGM.Cache

variable {K : Type} [Field K] [DecidableEq K]

/-- All components of a model satisfy `I`. -/
def Holds (I : ∀ t, (classOf K t).C → Prop) (comps : ∀ t, List (classOf K t).C) : Prop := ∀ t, ∀ c ∈ comps t, I t c

variable {I : ∀ t, (classOf K t).C → Prop}

theorem applySeq_inv (hI : ∀ t c u, I t c → I t ((classOf K t).update c u).1) (t : CompType) (us : List (classOf K t).U) :
    ∀ (seq : List Nat) (cs : List (classOf K t).C), (∀ c ∈ cs, I t c) →
      ∀ c ∈ (applySeq (classOf K t) cs us seq).1, I t c := by
  induction us with
  | nil => intro seq cs h; exact h
  | cons u us ih =>
    intro seq cs h
    cases seq with
    | nil => exact h
    | cons i is =>
      cases hi : cs[i]? with
      | none => simpa only [applySeq, hi] using h
      | some c =>
        have hset : ∀ x ∈ cs.set i ((classOf K t).update c u).1, I t x := by
          intro x hx
          rcases List.mem_or_eq_of_mem_set hx with hx | hx
          · exact h x hx
          · rw [hx]; exact hI t c u (h c (List.mem_of_getElem? hi))
        simp only [applySeq, hi]
        split
        · exact hset
        · exact ih is _ hset

theorem applyType_inv (hI : ∀ t c u, I t c → I t ((classOf K t).update c u).1) (cached : Bool) (t : CompType)
    (us : List (classOf K t).U) (seq : List Nat) (m : Model (classOf K)) (h : Holds I m.comps) :
    Holds I (applyType cached t us seq m).1.comps := by
  have key : Holds I (Function.update m.comps t (applySeq (classOf K t) (m.comps t) us seq).1) := by
    intro t'
    by_cases htt : t' = t
    · subst htt; simp only [Function.update_self]; exact applySeq_inv hI t' us seq _ (h t')
    · simp only [Function.update_of_ne htt]; exact h t'
  unfold applyType
  simp only
  split <;> exact key

theorem updateType_inv (hI : ∀ t c u, I t c → I t ((classOf K t).update c u).1) (cached : Bool) (t : CompType)
    (us : List (classOf K t).U) (seq : List Nat) (m : Model (classOf K)) (h : Holds I m.comps) :
    Holds I (updateType cached t us seq m).1.comps := by
  unfold updateType
  split
  · split
    · exact h
    · exact applyType_inv hI _ _ _ _ _ h
  · exact applyType_inv hI _ _ _ _ _ h

theorem forTypes_inv (f : CompType → Model (classOf K) → Model (classOf K) × Outcome)
    (hf : ∀ t m, Holds I m.comps → Holds I (f t m).1.comps) (ts : List CompType) :
    ∀ m, Holds I m.comps → Holds I (forTypes f ts m).1.comps := by
  induction ts with
  | nil => intro m h; exact h
  | cons t ts ih =>
    intro m h
    have h1 := hf t m h
    simp only [forTypes]
    generalize f t m = x at h1
    obtain ⟨xm, xo⟩ := x
    cases xo with
    | done => exact ih xm h1
    | raised e => exact h1
    | undefined => exact h1

theorem restoreType_inv (hI : ∀ t c u, I t c → I t ((classOf K t).update c u).1) (t : CompType) (seq : List Nat)
    (m : Model (classOf K)) (h : Holds I m.comps) : Holds I (restoreType t seq m).1.comps := by
  have h1 := updateType_inv hI false t (m.pending t) seq m h
  unfold restoreType
  split
  · exact h
  · generalize updateType false t (m.pending t) seq m = x at h1
    obtain ⟨xm, xo⟩ := x
    cases xo <;> exact h1

theorem step_inv (hI : ∀ t c u, I t c → I t ((classOf K t).update c u).1) {E : Env K}
    (s s' : State E × (CompType → List Nat)) (op : Op K) (h : Holds I s.1.model.comps) (hs : step E s op = some s') :
    Holds I s'.1.model.comps := by
  cases op with
  | update d =>
    simp only [step] at hs
    split at hs
    · cases hs
    · cases hs
      simp only
      unfold permanentUpdate
      simp only
      split
      · exact h
      · exact forTypes_inv _ (fun t m => updateType_inv hI _ _ _ _ m) _ _ h
  | setup p k =>
    simp only [step] at hs
    split at hs
    · cases hs
    · cases hs
      simp only
      unfold setup
      split
      · exact h
      · exact forTypes_inv _ (fun t m => updateType_inv hI _ _ _ _ m) _ _ h
  | winddown p =>
    simp only [step] at hs
    split at hs
    · cases hs
    · cases hs
      simp only
      have h1 := forTypes_inv (fun t => restoreType t (p.view s.2 t)) (fun t m => restoreType_inv hI t _ m) allTypes
        s.1.model h
      have h2 : Holds I (restoreComponents allTypes (p.view s.2) s.1.model).1.comps := by
        unfold restoreComponents
        generalize forTypes (fun t => restoreType t (p.view s.2 t)) allTypes s.1.model = x at h1
        obtain ⟨xm, xo⟩ := x
        cases xo <;> exact h1
      unfold winddown
      simp only
      generalize restoreComponents allTypes (p.view s.2) s.1.model = x at h2
      obtain ⟨xm, xo⟩ := x
      cases xo <;> exact h2
  | component cached t us seq =>
    simp only [step] at hs
    split at hs
    · cases hs
    · cases hs
      exact updateType_inv hI _ _ _ _ _ h
  | calculate sym =>
    simp only [step, Option.some.injEq] at hs
    subst hs
    have hc : (prepareSolvers s.1 sym).1.model.comps = s.1.model.comps := by
      unfold prepareSolvers
      have h1 : (rebuild s.1).1.model.comps = s.1.model.comps := by
        unfold rebuild; simp only; split <;> rfl
      have h2 : ∀ (st : State E) top, (conclude (refresh (prepareYBus st top sym) top sym) sym).model.comps = st.model.comps := by
        intro st top
        unfold conclude refresh prepareYBus
        simp only
        split <;> split <;> (try split) <;> (try split) <;> rfl
      split
      · simp only [Bool.not_true, Bool.false_eq_true, if_false]
        split
        · rfl
        · exact h2 _ _
      · simp only
        split
        · exact h1
        · split
          · exact h1
          · exact (h2 _ _).trans h1
    rw [hc]; exact h

/-- Invariants over histories. -/
theorem run_inv (hI : ∀ t c u, I t c → I t ((classOf K t).update c u).1) {E : Env K} (ops : List (Op K)) :
    ∀ (s s' : State E × (CompType → List Nat)), Holds I s.1.model.comps → run E s ops = some s' →
      Holds I s'.1.model.comps := by
  induction ops with
  | nil => intro s s' h hr; cases hr; exact h
  | cons op ops ih =>
    intro s s' h hr
    simp only [run] at hr
    cases hst : step E s op with
    | none => rw [hst] at hr; cases hr
    | some s1 => rw [hst] at hr; exact ih s1 s' (step_inv hI s s1 op h hst) hr

end PGM.Component
