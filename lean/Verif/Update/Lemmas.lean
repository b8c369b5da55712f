import Verif.Update.Model
import Verif.Update.Classes

/-! # Lemmas on lists of updates (helpers for `Verif.Update.Props`) -/

namespace PGM.Update

variable {K : Type} {cl : CompClass}

/-- The update elements whose sequence number is `j`, in order. -/
def hits (us : List cl.U) (seq : List Nat) (j : Nat) : List cl.U :=
  ((us.zip seq).filter (fun x => x.2 = j)).map (·.1)

theorem applySeq_length (cs : List cl.C) (us : List cl.U) (seq : List Nat) :
    (applySeq cl cs us seq).1.length = cs.length := by
  induction us generalizing cs seq with
  | nil => simp [applySeq]
  | cons u us ih =>
    cases seq with
    | nil => simp [applySeq]
    | cons i is =>
      unfold applySeq
      cases h : cs[i]? with
      | none => simp
      | some c =>
        simp only
        split
        · simp
        · simp only [ih]; simp

theorem applySeq_done (cs : List cl.C) (us : List cl.U) (seq : List Nat)
    (h : (applySeq cl cs us seq).2.2.2 = .done) (j : Nat) :
    (applySeq cl cs us seq).1[j]? = cs[j]?.map (fun c => (hits us seq j).foldl (fun c u => (cl.update c u).1) c) := by
  induction us generalizing cs seq with
  | nil => simp [applySeq, hits]
  | cons u us ih =>
    cases seq with
    | nil => simp [applySeq] at h
    | cons i is =>
      unfold applySeq at h ⊢
      cases hc : cs[i]? with
      | none => simp [hc] at h
      | some c =>
        simp only [hc] at h ⊢
        by_cases hr : (cl.update c u).2.2
        · simp [hr] at h
        · simp only [hr] at h ⊢
          simp only [Bool.false_eq_true, if_false] at h ⊢
          rw [ih _ _ h, List.getElem?_set]
          by_cases hij : i = j
          · subst hij
            have hlt : i < cs.length := by
              rw [List.getElem?_eq_some_iff] at hc
              exact hc.1
            rw [if_pos rfl, if_pos hlt, hc]
            simp [hits]
          · simp [hij, hits]

theorem applySeq_defined (cs : List cl.C) (us : List cl.U) (seq : List Nat) (hl : us.length ≤ seq.length)
    (hr : ∀ u i, (u, i) ∈ us.zip seq → i < cs.length) : (applySeq cl cs us seq).2.2.2 ≠ .undefined := by
  induction us generalizing cs seq with
  | nil => simp [applySeq]
  | cons u us ih =>
    cases seq with
    | nil => simp at hl
    | cons i is =>
      have hi := hr u i (by simp)
      unfold applySeq
      have hc : cs[i]? = some cs[i] := by simp [hi]
      simp only [hc]
      split
      · simp
      · simp only
        apply ih
        · simpa using hl
        · intro u' i' h'
          simpa using hr u' i' (by simp [h'])

theorem applySeq_undefined (cs : List cl.C) (us : List cl.U) (h : us ≠ []) :
    (applySeq cl cs us []).2.2.2 = .undefined := by
  cases us with
  | nil => exact absurd rfl h
  | cons u us => rfl

/-- Only a fault update raises, and nothing else than `invalidFault`. -/
theorem applySeq_raised (cs : List cl.C) (us : List cl.U) (seq : List Nat) (e : UErr)
    (h : (applySeq cl cs us seq).2.2.2 = .raised e) :
    e = .invalidFault ∧ ∃ c u, u ∈ us ∧ (cl.update c u).2.2 = true := by
  induction us generalizing cs seq with
  | nil => simp [applySeq] at h
  | cons u us ih =>
    cases seq with
    | nil => simp [applySeq] at h
    | cons i is =>
      unfold applySeq at h
      cases hc : cs[i]? with
      | none => simp [hc] at h
      | some c =>
        simp only [hc] at h
        by_cases hr : (cl.update c u).2.2
        · simp [hr] at h
          exact ⟨h.symm, c, u, by simp, hr⟩
        · simp only [hr, Bool.false_eq_true, if_false] at h
          obtain ⟨h1, c', u', h2, h3⟩ := ih _ _ h
          exact ⟨h1, c', u', by simp [h2], h3⟩

theorem inverses_some (cs : List cl.C) (us : List cl.U) (seq : List Nat) (hl : us.length ≤ seq.length)
    (hr : ∀ u i, (u, i) ∈ us.zip seq → i < cs.length) : ∃ inv, inverses cl cs us seq = some inv := by
  induction us generalizing seq with
  | nil => exact ⟨[], rfl⟩
  | cons u us ih =>
    cases seq with
    | nil => simp at hl
    | cons i is =>
      have hi := hr u i (by simp)
      obtain ⟨inv, h⟩ := ih is (by simpa using hl) (fun u' i' h' => hr u' i' (by simp [h']))
      exact ⟨cl.inverse cs[i] u :: inv, by simp [inverses, h, hi]⟩

theorem inverses_spec (cs : List cl.C) (us : List cl.U) (seq : List Nat) (inv : List cl.U)
    (h : inverses cl cs us seq = some inv) :
    inv.length = us.length ∧ us.length ≤ seq.length ∧
    (∀ v i, (v, i) ∈ inv.zip seq → ∃ u b, (u, i) ∈ us.zip seq ∧ cs[i]? = some b ∧ v = cl.inverse b u) ∧
    (∀ u i, (u, i) ∈ us.zip seq → ∃ b, cs[i]? = some b ∧ (cl.inverse b u, i) ∈ inv.zip seq) := by
  induction us generalizing seq inv with
  | nil => simp [inverses] at h; subst h; simp
  | cons u us ih =>
    cases seq with
    | nil => simp [inverses] at h
    | cons i is =>
      simp only [inverses, Option.bind_eq_bind, Option.bind_eq_some_iff] at h
      obtain ⟨c, hc, rest, hrest, h⟩ := h
      simp only [Option.pure_def, Option.some.injEq] at h
      subst h
      obtain ⟨h1, h2, h3, h4⟩ := ih is rest hrest
      refine ⟨by simp [h1], by simpa using h2, ?_, ?_⟩
      · intro v k hv
        simp only [List.zip_cons_cons, List.mem_cons, Prod.mk.injEq] at hv
        rcases hv with ⟨rfl, rfl⟩ | hv
        · exact ⟨u, c, by simp, hc, rfl⟩
        · obtain ⟨u', b, h5, h6, h7⟩ := h3 v k hv
          exact ⟨u', b, by simp [h5], h6, h7⟩
      · intro u' k hu
        simp only [List.zip_cons_cons, List.mem_cons, Prod.mk.injEq] at hu
        rcases hu with ⟨rfl, rfl⟩ | hu
        · exact ⟨c, hc, by simp⟩
        · obtain ⟨b, h5, h6⟩ := h4 u' k hu
          exact ⟨b, h5, by simp [h6]⟩

/-- The components `cur` differ from `base` at most in the attributes `P`. -/
structure Toward (S : Schema K cl) (base cur : List cl.C) (P : Nat → S.Attr → Prop) : Prop where
  len : cur.length = base.length
  at_ : ∀ (j : Nat) b c, base[j]? = some b → cur[j]? = some c →
    S.fixed c = S.fixed b ∧ S.wf c ∧ ∀ a, S.value c a = S.value b a ∨ P j a

theorem Toward.refl (S : Schema K cl) (base : List cl.C) (P : Nat → S.Attr → Prop) (hw : ∀ b ∈ base, S.wf b) :
    Toward S base base P := by
  refine ⟨rfl, ?_⟩
  intro j b c hb hc
  rw [hb] at hc
  cases hc
  exact ⟨rfl, hw b (List.mem_of_getElem? hb), fun a => Or.inl rfl⟩

theorem Toward.mono {S : Schema K cl} {base cur : List cl.C} {P Q : Nat → S.Attr → Prop} (h : Toward S base cur P)
    (hPQ : ∀ j a, P j a → Q j a) : Toward S base cur Q :=
  ⟨h.len, fun j b c hb hc =>
    ⟨(h.at_ j b c hb hc).1, (h.at_ j b c hb hc).2.1, fun a => ((h.at_ j b c hb hc).2.2 a).imp id (hPQ j a)⟩⟩

theorem Toward.eq {S : Schema K cl} (L : Lawful S) {base cur : List cl.C}
    (h : Toward S base cur (fun _ _ => False)) : cur = base := by
  apply List.ext_getElem?
  intro j
  by_cases hj : j < base.length
  · have hj' : j < cur.length := by rw [h.len]; exact hj
    have := h.at_ j base[j] cur[j] (by simp [hj]) (by simp [hj'])
    simp only [hj, hj', List.getElem?_eq_getElem, Option.some.injEq]
    exact L.ext _ _ this.2.1 this.1 (fun a => (this.2.2 a).resolve_right id)
  · have hj' : ¬ j < cur.length := by rw [h.len]; exact hj
    simp [Nat.not_lt.mp hj, Nat.not_lt.mp hj']

/-- One update whose attributes are all in `P`. -/
theorem Toward.step {S : Schema K cl} (L : Lawful S) {base cur : List cl.C} {P : Nat → S.Attr → Prop}
    (h : Toward S base cur P) (i : Nat) (c : cl.C) (u : cl.U) (hc : cur[i]? = some c) (hf : S.full u)
    (hP : ∀ a, S.given u a ≠ none → P i a) : Toward S base (cur.set i (cl.update c u).1) P := by
  refine ⟨by simp [h.len], ?_⟩
  intro j b d hb hd
  rw [List.getElem?_set] at hd
  by_cases hij : i = j
  · subst hij
    obtain ⟨h1, h2, h3⟩ := h.at_ i b c hb hc
    have hlt : i < cur.length := (List.getElem?_eq_some_iff.mp hc).1
    simp [hlt] at hd
    subst hd
    refine ⟨by rw [L.fixed_update, h1], L.wf_update _ _ h2, fun a => ?_⟩
    rw [L.sets c u h2 hf a]
    cases hg : S.given u a with
    | none => exact h3 a
    | some v => exact Or.inr (hP a (by simp [hg]))
  · simp [hij] at hd
    exact h.at_ j b d hb hd

theorem Toward.apply {S : Schema K cl} (L : Lawful S) {base cur : List cl.C} {P : Nat → S.Attr → Prop}
    (us : List cl.U) (seq : List Nat) (h : Toward S base cur P)
    (hu : ∀ u i, (u, i) ∈ us.zip seq → S.full u ∧ ∀ a, S.given u a ≠ none → P i a) :
    Toward S base (applySeq cl cur us seq).1 P := by
  induction us generalizing cur seq with
  | nil => simpa [applySeq] using h
  | cons u us ih =>
    cases seq with
    | nil => simpa [applySeq] using h
    | cons i is =>
      unfold applySeq
      cases hc : cur[i]? with
      | none => simpa using h
      | some c =>
        have h1 := hu u i (by simp)
        have hs := h.step L i c u hc h1.1 h1.2
        simp only
        split
        · exact hs
        · exact ih is hs (fun u' i' h' => hu u' i' (by simp [h']))

/-- The inverse updates `us` for positions `seq`: they only carry attribute values of `base`. -/
def InvOk (S : Schema K cl) (base : List cl.C) (us : List cl.U) (seq : List Nat) : Prop :=
  ∀ u i, (u, i) ∈ us.zip seq → S.full u ∧ ∀ b, base[i]? = some b → ∀ a v, S.given u a = some v → S.value b a = some v

/-- Attribute `a` of component `j` is given by one of the elements. -/
def Covered (S : Schema K cl) (us : List cl.U) (seq : List Nat) (j : Nat) (a : S.Attr) : Prop :=
  ∃ u, (u, j) ∈ us.zip seq ∧ S.given u a ≠ none

/-- One inverse update brings its attributes back to `base`. -/
theorem Toward.back {S : Schema K cl} (L : Lawful S) {base cur : List cl.C} {P : Nat → S.Attr → Prop}
    (hw : ∀ b ∈ base, S.wf b) (h : Toward S base cur P) (i : Nat) (c : cl.C) (u : cl.U) (hc : cur[i]? = some c)
    (hf : S.full u) (hP : ∀ b, base[i]? = some b → ∀ a v, S.given u a = some v → S.value b a = some v) :
    Toward S base (cur.set i (cl.update c u).1) (fun j a => P j a ∧ ¬ (j = i ∧ S.given u a ≠ none)) := by
  refine ⟨by simp [h.len], ?_⟩
  intro j b d hb hd
  rw [List.getElem?_set] at hd
  by_cases hij : i = j
  · subst hij
    obtain ⟨h1, h2, h3⟩ := h.at_ i b c hb hc
    have hlt : i < cur.length := (List.getElem?_eq_some_iff.mp hc).1
    simp [hlt] at hd
    subst hd
    refine ⟨by rw [L.fixed_update, h1], L.wf_update _ _ h2, fun a => ?_⟩
    rw [L.sets c u h2 hf a]
    cases hg : S.given u a with
    | none => exact (h3 a).imp id (fun h => ⟨h, by simp⟩)
    | some v =>
      have hv := hP b hb a v hg
      simp only
      left
      rw [L.accept_fixed c b h1, L.accept_value b a v (hw b (List.mem_of_getElem? hb)) hv, hv]
  · simp [hij] at hd
    obtain ⟨h1, h2, h3⟩ := h.at_ j b d hb hd
    exact ⟨h1, h2, fun a => (h3 a).imp id (fun h => ⟨h, fun h' => hij h'.1.symm⟩)⟩

theorem Toward.restore {S : Schema K cl} (L : Lawful S) {base cur : List cl.C} {P : Nat → S.Attr → Prop}
    (us : List cl.U) (seq : List Nat) (hw : ∀ b ∈ base, S.wf b) (h : Toward S base cur P)
    (hi : InvOk S base us seq) :
    Toward S base (applySeq cl cur us seq).1 P ∧
    ((applySeq cl cur us seq).2.2.2 = .done →
      Toward S base (applySeq cl cur us seq).1 (fun j a => P j a ∧ ¬ Covered S us seq j a)) := by
  induction us generalizing cur seq P with
  | nil => exact ⟨by simpa [applySeq] using h, fun _ => by simpa [applySeq, Covered] using h⟩
  | cons u us ih =>
    cases seq with
    | nil => exact ⟨by simpa [applySeq] using h, fun hd => by simp [applySeq] at hd⟩
    | cons i is =>
      unfold applySeq
      cases hc : cur[i]? with
      | none => exact ⟨by simpa using h, fun hd => by simp at hd⟩
      | some c =>
        have h1 := hi u i (by simp)
        have hs := h.back L hw i c u hc h1.1 h1.2
        have hi' : InvOk S base us is := fun u' i' h' => hi u' i' (by simp [h'])
        simp only
        split
        · exact ⟨hs.mono (fun _ _ h => h.1), fun hd => by simp at hd⟩
        · obtain ⟨ih1, ih2⟩ := ih is hs hi'
          refine ⟨ih1.mono (fun _ _ h => h.1), fun hd => ?_⟩
          refine (ih2 hd).mono ?_
          rintro j a ⟨⟨hp, hn⟩, hc'⟩
          refine ⟨hp, ?_⟩
          rintro ⟨u', hm, hg⟩
          simp only [List.zip_cons_cons, List.mem_cons, Prod.mk.injEq] at hm
          rcases hm with ⟨rfl, rfl⟩ | hm
          · exact hn ⟨rfl, hg⟩
          · exact hc' ⟨u', hm, hg⟩

/-! ## The loop over component types -/

section
variable {T : Type} [DecidableEq T] {cls : T → CompClass}

/-- Components, index and pending inverse updates of two models agree. -/
structure SameCore (m m' : Model cls) : Prop where
  comps : m.comps = m'.comps
  index : m.index = m'.index
  pending : m.pending = m'.pending

theorem applyType_core (cached : Bool) (t : T) (us : List (cls t).U) (seq : List Nat) (m : Model cls) :
    (applyType cached t us seq m).1.comps = Function.update m.comps t (applySeq (cls t) (m.comps t) us seq).1 ∧
    (applyType cached t us seq m).1.index = m.index ∧
    (applyType cached t us seq m).1.pending = m.pending ∧
    (applyType cached t us seq m).2 = (applySeq (cls t) (m.comps t) us seq).2.2.2 := by
  unfold applyType
  simp only
  split
  · rename_i h; simp [h]
  · simp

theorem applyType_same (cached : Bool) (t : T) (us : List (cls t).U) (seq : List Nat) (m m' : Model cls)
    (h : SameCore m m') : SameCore (applyType cached t us seq m).1 (applyType cached t us seq m').1 ∧
    (applyType cached t us seq m).2 = (applyType cached t us seq m').2 := by
  obtain ⟨a1, a2, a3, a4⟩ := applyType_core cached t us seq m
  obtain ⟨b1, b2, b3, b4⟩ := applyType_core cached t us seq m'
  refine ⟨⟨?_, ?_, ?_⟩, ?_⟩
  · rw [a1, b1, h.comps]
  · rw [a2, b2, h.index]
  · rw [a3, b3, h.pending]
  · rw [a4, b4, h.comps]

theorem updateType_same (cached : Bool) (t : T) (us : List (cls t).U) (seq : List Nat) (m m' : Model cls)
    (h : SameCore m m') : SameCore (updateType cached t us seq m).1 (updateType cached t us seq m').1 ∧
    (updateType cached t us seq m).2 = (updateType cached t us seq m').2 := by
  unfold updateType
  cases cached with
  | false => exact applyType_same _ _ _ _ _ _ h
  | true =>
    simp only [if_true]
    rw [← h.comps]
    cases inverses (cls t) (m.comps t) us seq with
    | none => exact ⟨h, rfl⟩
    | some inv =>
      apply applyType_same
      exact ⟨rfl, h.index, by simp only [h.pending]⟩

omit [DecidableEq T] in
theorem forTypes_same (f : T → Model cls → Model cls × Outcome)
    (hf : ∀ t m m', SameCore m m' → SameCore (f t m).1 (f t m').1 ∧ (f t m).2 = (f t m').2) (ts : List T)
    (m m' : Model cls) (h : SameCore m m') :
    SameCore (forTypes f ts m).1 (forTypes f ts m').1 ∧ (forTypes f ts m).2 = (forTypes f ts m').2 := by
  induction ts generalizing m m' with
  | nil => exact ⟨h, rfl⟩
  | cons t ts ih =>
    obtain ⟨h1, h2⟩ := hf t m m' h
    unfold forTypes
    generalize hx : f t m = x at h1 h2
    generalize hy : f t m' = y at h1 h2
    obtain ⟨xm, xo⟩ := x
    obtain ⟨ym, yo⟩ := y
    simp only at h1 h2
    subst h2
    cases xo with
    | done => exact ih _ _ h1
    | raised e => exact ⟨h1, rfl⟩
    | undefined => exact ⟨h1, rfl⟩

theorem restoreType_same (t : T) (seq : List Nat) (m m' : Model cls)
    (h : SameCore m m') : SameCore (restoreType t seq m).1 (restoreType t seq m').1 ∧
    (restoreType t seq m).2 = (restoreType t seq m').2 := by
  unfold restoreType
  rw [← h.pending]
  split
  · exact ⟨h, rfl⟩
  · obtain ⟨h1, h2⟩ := updateType_same false t (m.pending t) seq m m' h
    generalize hx : updateType false t (m.pending t) seq m = x at h1 h2
    generalize hy : updateType false t (m.pending t) seq m' = y at h1 h2
    obtain ⟨xm, xo⟩ := x
    obtain ⟨ym, yo⟩ := y
    simp only at h1 h2
    subst h2
    cases xo with
    | done => exact ⟨⟨h1.comps, h1.index, by simp only [h1.pending]⟩, rfl⟩
    | raised e => exact ⟨h1, rfl⟩
    | undefined => exact ⟨h1, rfl⟩

theorem restoreComponents_same (order : List T) (seq : T → List Nat) (m m' : Model cls) (h : SameCore m m') :
    SameCore (restoreComponents order seq m).1 (restoreComponents order seq m').1 ∧
    (restoreComponents order seq m).2 = (restoreComponents order seq m').2 := by
  obtain ⟨h1, h2⟩ := forTypes_same (fun t => restoreType t (seq t))
    (fun t m m' h => restoreType_same t (seq t) m m' h) order m m' h
  unfold restoreComponents
  generalize hx : forTypes (fun t => restoreType t (seq t)) order m = x at h1 h2
  generalize hy : forTypes (fun t => restoreType t (seq t)) order m' = y at h1 h2
  obtain ⟨xm, xo⟩ := x
  obtain ⟨ym, yo⟩ := y
  simp only at h1 h2
  subst h2
  cases xo with
  | done => exact ⟨⟨h1.comps, h1.index, h1.pending⟩, rfl⟩
  | raised e => exact ⟨h1, rfl⟩
  | undefined => exact ⟨h1, rfl⟩

/-- What is known about the components and pending inverse updates of one type while a scenario is being applied or
restored; `N` are attributes whose original value is lost. -/
structure Cov (S : Schema K cl) (base : List cl.C) (seq : List Nat) (N : Nat → S.Attr → Prop) (cs : List cl.C)
    (pend : List cl.U) : Prop where
  len : pend.length ≤ seq.length
  rng : ∀ u i, (u, i) ∈ pend.zip seq → i < base.length
  inv : InvOk S base pend seq
  tow : Toward S base cs (fun j a => Covered S pend seq j a ∨ N j a)

theorem Cov.start (S : Schema K cl) (base : List cl.C) (seq : List Nat) (N : Nat → S.Attr → Prop)
    (hw : ∀ b ∈ base, S.wf b) : Cov S base seq N base [] :=
  ⟨by simp, by simp, by intro u i h; simp at h, Toward.refl S base _ hw⟩

variable (S : ∀ t, Schema K (cls t)) (L : ∀ t, Lawful (S t))

include L

/-- Applying the updates of a type to the base components. -/
theorem updateType_cov (base : ∀ t, List (cls t).C) (hw : ∀ t, ∀ b ∈ base t, (S t).wf b) (t : T) (us : List (cls t).U)
    (seq : List Nat) (N : Nat → (S t).Attr → Prop) (m : Model cls) (hb : m.comps t = base t) (hp : m.pending t = [])
    (hl : us.length ≤ seq.length) (hr : ∀ u i, (u, i) ∈ us.zip seq → i < (base t).length)
    (hf : ∀ u i, (u, i) ∈ us.zip seq → (S t).full u)
    (hN : ∀ u i b, (u, i) ∈ us.zip seq → (base t)[i]? = some b → ∀ a, (S t).given u a ≠ none → (S t).value b a = none →
      N i a) :
    Cov (S t) (base t) seq N ((updateType true t us seq m).1.comps t) ((updateType true t us seq m).1.pending t) ∧
    (updateType true t us seq m).2 ≠ .undefined ∧ (updateType true t us seq m).1.index = m.index ∧
    ∀ t', t' ≠ t → (updateType true t us seq m).1.comps t' = m.comps t' ∧
      (updateType true t us seq m).1.pending t' = m.pending t' := by
  unfold updateType
  simp only [if_true]
  obtain ⟨inv, hinv⟩ := inverses_some (base t) us seq hl hr
  rw [hb, hinv]
  simp only
  obtain ⟨a1, a2, a3, a4⟩ := applyType_core true t us seq
    { m with pending := Function.update m.pending t (m.pending t ++ inv) }
  obtain ⟨i1, i2, i3, i4⟩ := inverses_spec (base t) us seq inv hinv
  simp only at a1 a2 a3 a4
  rw [a1, a2, a3, a4, hb, hp]
  refine ⟨?_, ?_, rfl, ?_⟩
  · simp only [Function.update_self, List.nil_append]
    refine ⟨by omega, ?_, ?_, ?_⟩
    · intro v i hv
      obtain ⟨u, b, h1, _, _⟩ := i3 v i hv
      exact hr u i h1
    · intro v i hv
      obtain ⟨u, b, h1, h2, rfl⟩ := i3 v i hv
      refine ⟨(L t).inv_full b u (hf u i h1), ?_⟩
      intro b' hb' a w hg
      rw [h2] at hb'
      cases hb'
      rw [(L t).inv_given b u a (hw t b (List.mem_of_getElem? h2))] at hg
      cases h3 : (S t).given u a with
      | none => simp [h3] at hg
      | some x => simpa [h3] using hg
    · apply Toward.apply (L t) us seq
      · exact Toward.refl (S t) (base t) _ (hw t)
      · intro u i hu
        refine ⟨hf u i hu, ?_⟩
        intro a hg
        obtain ⟨b, hb1, hb2⟩ := i4 u i hu
        by_cases hv : (S t).value b a = none
        · exact Or.inr (hN u i b hu hb1 a hg hv)
        · left
          refine ⟨_, hb2, ?_⟩
          rw [(L t).inv_given b u a (hw t b (List.mem_of_getElem? hb1))]
          cases h3 : (S t).given u a with
          | none => exact absurd h3 hg
          | some x => exact hv
  · apply applySeq_defined _ _ _ hl hr
  · intro t' ht'
    simp [Function.update_of_ne ht']

/-- Restoring one type. -/
theorem restoreType_cov (base : ∀ t, List (cls t).C) (hw : ∀ t, ∀ b ∈ base t, (S t).wf b) (t : T)
    (seq : List Nat) (N : Nat → (S t).Attr → Prop) (m : Model cls)
    (h : Cov (S t) (base t) seq N (m.comps t) (m.pending t)) :
    (restoreType t seq m).2 ≠ .undefined ∧ (restoreType t seq m).1.index = m.index ∧
    (∀ t', t' ≠ t → (restoreType t seq m).1.comps t' = m.comps t' ∧
      (restoreType t seq m).1.pending t' = m.pending t') ∧
    Cov (S t) (base t) seq N ((restoreType t seq m).1.comps t) ((restoreType t seq m).1.pending t) ∧
    ((restoreType t seq m).2 = .done →
      Toward (S t) (base t) ((restoreType t seq m).1.comps t) N ∧ (restoreType t seq m).1.pending t = []) := by
  unfold restoreType
  by_cases he : m.pending t = []
  · simp only [he, List.isEmpty_nil, if_true]
    refine ⟨by simp, trivial, by simp, ?_, ?_⟩
    · rw [he] at h; exact h
    · intro _
      refine ⟨h.tow.mono ?_, trivial⟩
      intro j a hj
      rcases hj with ⟨u, hu, _⟩ | hj
      · rw [he] at hu; simp at hu
      · exact hj
  · have he' : (m.pending t).isEmpty = false := by simpa using he
    simp only [he', Bool.false_eq_true, if_false]
    obtain ⟨a1, a2, a3, a4⟩ := applyType_core false t (m.pending t) seq m
    have hu : updateType false t (m.pending t) seq m = applyType false t (m.pending t) seq m := by simp [updateType]
    rw [hu]
    generalize hx : applyType false t (m.pending t) seq m = x at a1 a2 a3 a4
    obtain ⟨xm, xo⟩ := x
    simp only at a1 a2 a3 a4
    have hdef : xo ≠ .undefined := by
      rw [a4]
      apply applySeq_defined _ _ _ h.len
      intro u i hm
      rw [h.tow.len]
      exact h.rng u i hm
    obtain ⟨r1, r2⟩ := Toward.restore (L t) (m.pending t) seq (hw t) h.tow h.inv
    cases xo with
    | done =>
      simp only
      have r2' := r2 a4.symm
      have hN : Toward (S t) (base t) (applySeq (cls t) (m.comps t) (m.pending t) seq).1 N := by
        refine r2'.mono ?_
        rintro j a ⟨hc | hc, hn⟩
        · exact absurd hc hn
        · exact hc
      refine ⟨by simp, a2, ?_, ?_, ?_⟩
      · intro t' ht'
        rw [a1, a3]
        simp [Function.update_of_ne ht']
      · rw [a1]
        simp only [Function.update_self]
        exact ⟨by simp, by simp, by intro u i h; simp at h, hN.mono (fun _ _ h => Or.inr h)⟩
      · intro _
        rw [a1]
        simp only [Function.update_self]
        exact ⟨hN, trivial⟩
    | raised e =>
      simp only
      refine ⟨by simp, a2, ?_, ?_, by simp⟩
      · intro t' ht'
        rw [a1, a3]
        simp [Function.update_of_ne ht']
      · rw [a1, a3]
        simp only [Function.update_self]
        exact ⟨h.len, h.rng, h.inv, r1⟩
    | undefined => exact absurd rfl hdef

end

end PGM.Update
