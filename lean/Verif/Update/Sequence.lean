import Verif.Update.Lemmas

/-! # Lemmas on index sequences and on the loop over all component types (helpers for `Verif.Update.Props`) -/

set_option linter.unusedSectionVars false

namespace PGM.Update

variable {T : Type} [DecidableEq T] {cls : T → CompClass}

/-! ## Index sequences -/

theorem foldlM_seq (index : Int → Option (T × Nat)) (d : Dataset cls) (s : Nat) (p : T → UpdProps) (cached : Bool)
    (ts : List T) (hnd : ts.Nodup) (acc f : T → List Nat)
    (h : ts.foldlM (sequenceStep index d s p cached) acc = .ok f) :
    (∀ t ∈ ts, sequenceOf index d s (p t) cached t = .ok (f t)) ∧ ∀ t, t ∉ ts → f t = acc t := by
  induction ts generalizing acc with
  | nil =>
    simp only [List.foldlM_nil, pure, Except.pure, Except.ok.injEq] at h
    subst h
    simp
  | cons t ts ih =>
    simp only [List.foldlM_cons] at h
    cases hs : sequenceOf index d s (p t) cached t with
    | error e => simp [sequenceStep, hs, bind, Except.bind] at h
    | ok l =>
      simp only [sequenceStep, hs, bind, Except.bind] at h
      obtain ⟨h1, h2⟩ := ih (List.nodup_cons.mp hnd).2 _ h
      have ht := h2 t (List.nodup_cons.mp hnd).1
      refine ⟨?_, ?_⟩
      · intro t' ht'
        rcases List.mem_cons.mp ht' with rfl | ht'
        · rw [ht]; simpa using hs
        · exact h1 t' ht'
      · intro t' ht'
        simp only [List.mem_cons, not_or] at ht'
        rw [h2 t' ht'.2]
        simp [Function.update_of_ne ht'.1]

theorem foldlM_err (index : Int → Option (T × Nat)) (d : Dataset cls) (s : Nat) (p : T → UpdProps) (cached : Bool)
    (ts : List T) (acc : T → List Nat) (e : UErr)
    (h : ts.foldlM (sequenceStep index d s p cached) acc = .error e) :
    ∃ t ∈ ts, sequenceOf index d s (p t) cached t = .error e := by
  induction ts generalizing acc with
  | nil => simp [pure, Except.pure] at h
  | cons t ts ih =>
    simp only [List.foldlM_cons] at h
    cases hs : sequenceOf index d s (p t) cached t with
    | error e' =>
      simp only [sequenceStep, hs, bind, Except.bind, Except.error.injEq] at h
      exact ⟨t, by simp, by rw [hs, h]⟩
    | ok l =>
      simp only [sequenceStep, hs, bind, Except.bind] at h
      obtain ⟨t', h1, h2⟩ := ih _ h
      exact ⟨t', by simp [h1], h2⟩

theorem sequenceMap_ok (order : List T) (hnd : order.Nodup) (index : Int → Option (T × Nat)) (d : Dataset cls) (s : Nat)
    (p : T → UpdProps) (cached : Bool) (f : T → List Nat) (h : sequenceMap order index d s p cached = .ok f) (t : T)
    (ht : t ∈ order) : sequenceOf index d s (p t) cached t = .ok (f t) :=
  (foldlM_seq index d s p cached order hnd _ f h).1 t ht

theorem sequenceMap_congr (order : List T) (index : Int → Option (T × Nat)) (d d' : Dataset cls) (s : Nat)
    (p p' : T → UpdProps) (cached : Bool)
    (h : ∀ t, sequenceOf index d s (p t) cached t = sequenceOf index d' s (p' t) cached t) :
    sequenceMap order index d s p cached = sequenceMap order index d' s p' cached := by
  unfold sequenceMap
  congr 1
  funext acc t
  simp [sequenceStep, h t]

theorem mapM_idx (index : Int → Option (T × Nat)) (t : T) (us : List (cls t).U) (l : List Nat)
    (h : us.mapM (fun u => idxById index t ((cls t).uid u)) = .ok l) :
    l.length = us.length ∧
    ∀ (k : Nat) u, us[k]? = some u → ∃ j, l[k]? = some j ∧ index ((cls t).uid u) = some (t, j) := by
  induction us generalizing l with
  | nil =>
    simp only [List.mapM_nil, pure, Except.pure, Except.ok.injEq] at h
    subst h; simp
  | cons u us ih =>
    rw [List.mapM_cons] at h
    cases h1 : idxById index t ((cls t).uid u) with
    | error e => simp [h1, bind, Except.bind] at h
    | ok j =>
      cases h2 : us.mapM (fun u => idxById index t ((cls t).uid u)) with
      | error e => simp [h1, h2, bind, Except.bind] at h
      | ok l' =>
        simp only [h1, h2, bind, Except.bind, pure, Except.pure, Except.ok.injEq] at h
        subst h
        obtain ⟨i1, i2⟩ := ih l' h2
        refine ⟨by simp [i1], ?_⟩
        intro k v hv
        cases k with
        | zero =>
          simp only [List.getElem?_cons_zero, Option.some.injEq] at hv
          subst hv
          refine ⟨j, by simp, ?_⟩
          unfold idxById at h1
          cases h3 : index ((cls t).uid u) with
          | none => simp [h3] at h1
          | some x =>
            obtain ⟨t', j'⟩ := x
            simp only [h3] at h1
            split at h1
            · rename_i h4; cases h1; rw [h4]
            · simp at h1
        | succ k => simpa using i2 k v (by simpa using hv)

theorem mapM_idx_known (index : Int → Option (T × Nat)) (t : T) (us : List (cls t).U)
    (h : ∀ u ∈ us, ∃ j, index ((cls t).uid u) = some (t, j)) :
    ∃ l, us.mapM (fun u => idxById index t ((cls t).uid u)) = .ok l := by
  induction us with
  | nil => exact ⟨[], rfl⟩
  | cons u us ih =>
    obtain ⟨l, hl⟩ := ih (fun u hu => h u (by simp [hu]))
    obtain ⟨j, hj⟩ := h u (by simp)
    have h1 : idxById index t ((cls t).uid u) = .ok j := by simp [idxById, hj]
    exact ⟨j :: l, by
      rw [List.mapM_cons]
      simp [h1, hl, bind, Except.bind, pure, Except.pure]⟩

theorem mapM_idx_err (index : Int → Option (T × Nat)) (t : T) (us : List (cls t).U) (e : UErr)
    (h : us.mapM (fun u => idxById index t ((cls t).uid u)) = .error e) :
    ∃ u ∈ us, (∀ j, index ((cls t).uid u) ≠ some (t, j)) ∧
      ((e = .idNotFound ((cls t).uid u) ∧ index ((cls t).uid u) = none) ∨
       (e = .idWrongType ((cls t).uid u) ∧ ∃ x, index ((cls t).uid u) = some x)) := by
  induction us with
  | nil => simp [pure, Except.pure] at h
  | cons u us ih =>
    rw [List.mapM_cons] at h
    cases h1 : idxById index t ((cls t).uid u) with
    | error e' =>
      simp only [h1, bind, Except.bind, Except.error.injEq] at h
      subst h
      refine ⟨u, by simp, ?_⟩
      unfold idxById at h1
      cases h3 : index ((cls t).uid u) with
      | none => simp [h3] at h1; simp [h1]
      | some x =>
        obtain ⟨t', j'⟩ := x
        simp only [h3] at h1
        split at h1
        · simp at h1
        · rename_i h4
          simp only [Except.error.injEq] at h1
          subst h1
          refine ⟨?_, ?_⟩
          · intro j hj
            simp only [Option.some.injEq, Prod.mk.injEq] at hj
            exact h4 hj.1
          · simp
    | ok j =>
      cases h2 : us.mapM (fun u => idxById index t ((cls t).uid u)) with
      | error e' =>
        simp only [h1, h2, bind, Except.bind, Except.error.injEq] at h
        subst h
        obtain ⟨v, hv1, hv2⟩ := ih h2
        exact ⟨v, by simp [hv1], hv2⟩
      | ok l' => simp [h1, h2, bind, Except.bind, pure, Except.pure] at h

theorem mapM_idx_congr (index : Int → Option (T × Nat)) (t : T) (us vs : List (cls t).U)
    (h : us.map (cls t).uid = vs.map (cls t).uid) :
    us.mapM (fun u => idxById index t ((cls t).uid u)) = vs.mapM (fun u => idxById index t ((cls t).uid u)) := by
  induction us generalizing vs with
  | nil => cases vs with
    | nil => rfl
    | cons v vs => simp at h
  | cons u us ih => cases vs with
    | nil => simp at h
    | cons v vs =>
      simp only [List.map_cons, List.cons.injEq] at h
      rw [List.mapM_cons, List.mapM_cons, ih vs h.2, h.1]

/-! ## The properties of the update data of one type -/

/-- The position that the `k`-th element `u` addresses: `k` if the whole update of the type goes without IDs, otherwise the
position of the ID. -/
def Good (index : Int → Option (T × Nat)) (n : Nat) (t : T) (us : List (cls t).U) (seq : List Nat) : Prop :=
  seq.length = us.length ∧
  (((∀ u ∈ us, (cls t).uid u = naIntID) ∧ us.length = n ∧ seq = List.range us.length) ∨
   ((∀ u ∈ us, (cls t).uid u ≠ naIntID) ∧
    ∀ (k : Nat) u, us[k]? = some u → ∃ j, seq[k]? = some j ∧ index ((cls t).uid u) = some (t, j)))

theorem Good.nil (index : Int → Option (T × Nat)) (n : Nat) (t : T) : Good (cls := cls) index n t [] [] :=
  ⟨rfl, Or.inr ⟨by simp, by simp⟩⟩

theorem idNa_eq (x : Int) : idNa x = true ↔ x = naIntID := by simp [idNa]

theorem hasAny_false (d : Dataset cls) (t : T) (h : d.hasAny t = false) (s : Nat) (hs : s < d.n) : d.span t s = [] := by
  unfold Dataset.hasAny at h
  unfold Dataset.span
  cases hh : d.has t with
  | false => simp
  | true =>
    simp only [hh, Bool.true_and, List.any_eq_false, List.mem_range] at h
    simpa using h s hs

theorem hasAny_has (d : Dataset cls) (t : T) (h : d.hasAny t = true) : d.has t = true := by
  unfold Dataset.hasAny at h
  simp only [Bool.and_eq_true] at h
  exact h.1

theorem sequence_length (index : Int → Option (T × Nat)) (t : T) (us : List (cls t).U) (n : Option Nat) (l : List Nat)
    (h : sequence index t us n = .ok l) : l.length = us.length := by
  unfold sequence at h
  cases n with
  | none => exact (mapM_idx index t us l h).1
  | some k => simp only [Except.ok.injEq] at h; subst h; simp

/-- The sequence used for scenario `s` of a batch addresses the components as intended. -/
theorem batch_good (index : Int → Option (T × Nat)) (d : Dataset cls) (t : T) (n : Nat) (all cur : List Nat)
    (h0 : 0 < d.n) (hall : sequenceOf index d 0 (checkIndependence d t n) false t = .ok all) (s : Nat) (hs : s < d.n)
    (hcur : sequenceOf index d s (checkIndependence d t n) true t = .ok cur) :
    Good index n t (d.span t s) (if (checkIndependence d t n).independent then all else cur) := by
  cases hany : d.hasAny t with
  | false =>
    have e0 := hasAny_false d t hany 0 h0
    have es := hasAny_false d t hany s hs
    have hind : (checkIndependence d t n).independent = true := by
      simp [checkIndependence, hany, UpdProps.independent, UpdProps.provided]
    rw [es]
    simp only [hind, if_true]
    unfold sequenceOf at hall
    simp only [hind] at hall
    split at hall
    · cases hv : validate (checkIndependence d t n) with
      | error e => simp [hv, bind, Except.bind] at hall
      | ok _ =>
        simp only [hv, bind, Except.bind] at hall
        have := sequence_length index t _ _ _ hall
        rw [e0] at this
        have : all = [] := by simpa using this
        rw [this]; exact Good.nil index n t
    · cases hall; exact Good.nil index n t
  | true =>
    have hhas := hasAny_has d t hany
    have hsp : ∀ s, d.span t s = d.elems t s := by intro s; simp [Dataset.span, hhas]
    rw [hsp]
    have hp : checkIndependence d t n =
      { hasAny := true, allNa := allIdsNa d t, partNa := !allIdsNa d t && anyIdsNa d t, uniform := d.uniform t
        match_ := d.uniform t && idsMatch d t, ps := if d.uniform t then some (d.perScenario t) else none
        base := n } := by simp [checkIndependence, hany]
    generalize hq : checkIndependence d t n = p at hall hcur
    rw [hp] at hq
    have hNamed : allIdsNa d t = false → anyIdsNa d t = false → ∀ u ∈ d.elems t s, (cls t).uid u ≠ naIntID := by
      intro _ h2 u hu
      simp only [anyIdsNa, List.any_eq_false, List.mem_range] at h2
      intro hna
      exact h2 s hs (List.any_eq_true.mpr ⟨u, hu, (idNa_eq _).mpr hna⟩)
    have hRun : ∀ s l c, sequenceOf index d s p c t = .ok l → (c != p.independent) = true →
        validate p = .ok () ∧ sequence index t (d.elems t s) p.nElements = .ok l := by
      intro s l c h hc
      unfold sequenceOf at h
      simp only [hc, hhas, Bool.and_self, if_true] at h
      cases hv : validate p with
      | error e => simp [hv, bind, Except.bind] at h
      | ok _ => simp only [hv, bind, Except.bind, hsp] at h; exact ⟨rfl, h⟩
    cases hind : p.independent with
    | true =>
      simp only [if_true]
      obtain ⟨_, hseq⟩ := hRun 0 all false hall (by simp [hind])
      cases hqf : p.qualify with
      | true =>
        have hq2 := hqf
        rw [← hq] at hq2
        simp only [UpdProps.qualify, Bool.and_eq_true, beq_iff_eq] at hq2
        obtain ⟨⟨⟨⟨hu, _⟩, hna⟩, _⟩, hps⟩ := hq2
        simp only [hu, if_true, Option.some.injEq, Dataset.perScenario, hhas] at hps
        have hlen : (d.elems t s).length = (d.elems t 0).length := by
          simp only [Dataset.uniform, hhas, Bool.not_true, Bool.false_or, List.all_eq_true, List.mem_range,
            beq_iff_eq] at hu
          exact hu s hs
        have hnel : p.nElements = some n := by
          unfold UpdProps.nElements
          rw [hqf, ← hq]
          simp [hu, Dataset.perScenario, hhas, hps]
        rw [hnel] at hseq
        simp only [sequence, Except.ok.injEq] at hseq
        refine ⟨by rw [← hseq, hlen]; simp, Or.inl ⟨?_, by omega, by rw [← hseq, hlen]⟩⟩
        intro u hu'
        simp only [allIdsNa, List.all_eq_true, List.mem_range] at hna
        exact (idNa_eq _).mp (hna s hs u hu')
      | false =>
        have hprov : p.provided = true := by
          simpa [UpdProps.independent, hqf] using hind
        have hnel : p.nElements = none := by simp [UpdProps.nElements, hqf]
        rw [hnel] at hseq
        rw [← hq] at hprov
        simp only [UpdProps.provided, Bool.not_true, Bool.false_or, Bool.and_eq_true, Bool.not_eq_true',
          Bool.or_eq_false_iff] at hprov
        obtain ⟨⟨_, hm⟩, hna, hpa⟩ := hprov
        have hany' : anyIdsNa d t = false := by simpa [hna] using hpa
        have hids : (d.elems t s).map (cls t).uid = (d.elems t 0).map (cls t).uid := by
          simp only [idsMatch, List.all_eq_true, List.mem_range, beq_iff_eq] at hm
          exact hm s hs
        simp only [sequence] at hseq
        rw [mapM_idx_congr index t _ _ hids.symm] at hseq
        obtain ⟨g1, g2⟩ := mapM_idx index t _ _ hseq
        exact ⟨g1, Or.inr ⟨hNamed hna hany', g2⟩⟩
    | false =>
      simp only [Bool.false_eq_true, if_false]
      obtain ⟨hval, hseq⟩ := hRun s cur true hcur (by simp [hind])
      have hqf : p.qualify = false := by
        simp only [UpdProps.independent, Bool.or_eq_false_iff] at hind
        exact hind.1
      have hnel : p.nElements = none := by simp [UpdProps.nElements, hqf]
      rw [hnel] at hseq
      have hha : p.hasAny = true := by rw [← hq]
      unfold validate at hval
      simp only [hha, hnel, Bool.not_true, Bool.false_eq_true, if_false] at hval
      have hpn : p.partNa = false := by
        cases h : p.partNa with
        | false => rfl
        | true => simp [h] at hval
      have hna : p.allNa = false := by
        cases h : p.allNa with
        | false => rfl
        | true => simp [h, hpn] at hval
      rw [← hq] at hpn hna
      simp only at hpn hna
      have hany' : anyIdsNa d t = false := by simpa [hna] using hpn
      simp only [sequence] at hseq
      obtain ⟨g1, g2⟩ := mapM_idx index t _ _ hseq
      exact ⟨g1, Or.inr ⟨hNamed hna hany', g2⟩⟩

/-! ## The loop over all component types -/

section
variable {K : Type} (S : ∀ t, Schema K (cls t)) (L : ∀ t, Lawful (S t))

include L

theorem forTypes_update_cov (base : ∀ t, List (cls t).C) (hw : ∀ t, ∀ b ∈ base t, (S t).wf b) (us : ∀ t, List (cls t).U)
    (seq : T → List Nat) (N : ∀ t, Nat → (S t).Attr → Prop)
    (hl : ∀ t, (us t).length ≤ (seq t).length) (hr : ∀ t u i, (u, i) ∈ (us t).zip (seq t) → i < (base t).length)
    (hf : ∀ t u i, (u, i) ∈ (us t).zip (seq t) → (S t).full u)
    (hN : ∀ t u i b, (u, i) ∈ (us t).zip (seq t) → (base t)[i]? = some b → ∀ a, (S t).given u a ≠ none →
      (S t).value b a = none → N t i a)
    (ts : List T) (hnd : ts.Nodup) (m : Model cls)
    (hm : ∀ t, t ∈ ts → m.comps t = base t ∧ m.pending t = [])
    (hc : ∀ t, Cov (S t) (base t) (seq t) (N t) (m.comps t) (m.pending t)) :
    let r := forTypes (fun t => updateType true t (us t) (seq t)) ts m
    r.2 ≠ .undefined ∧ r.1.index = m.index ∧
    ∀ t, Cov (S t) (base t) (seq t) (N t) (r.1.comps t) (r.1.pending t) := by
  induction ts generalizing m with
  | nil => exact ⟨by simp [forTypes], rfl, hc⟩
  | cons t ts ih =>
    obtain ⟨hb, hp⟩ := hm t (by simp)
    obtain ⟨h1, h2, h3, h4⟩ := updateType_cov S L base hw t (us t) (seq t) (N t) m hb hp (hl t) (hr t) (hf t) (hN t)
    simp only [forTypes]
    generalize hx : updateType true t (us t) (seq t) m = x at h1 h2 h3 h4
    obtain ⟨xm, xo⟩ := x
    simp only at h1 h2 h3 h4
    have hcov : ∀ t, Cov (S t) (base t) (seq t) (N t) (xm.comps t) (xm.pending t) := by
      intro t'
      by_cases ht : t' = t
      · subst ht; exact h1
      · rw [(h4 t' ht).1, (h4 t' ht).2]; exact hc t'
    cases xo with
    | done =>
      simp only
      have := ih (List.nodup_cons.mp hnd).2 xm (by
        intro t' ht'
        have hne : t' ≠ t := fun h => (List.nodup_cons.mp hnd).1 (h ▸ ht')
        rw [(h4 t' hne).1, (h4 t' hne).2]
        exact hm t' (by simp [ht'])) hcov
      rw [h3] at this
      exact this
    | raised e => exact ⟨by simp, h3, hcov⟩
    | undefined => exact absurd rfl h2

theorem forTypes_restore_cov (base : ∀ t, List (cls t).C) (hw : ∀ t, ∀ b ∈ base t, (S t).wf b)
    (seq : T → List Nat) (N : ∀ t, Nat → (S t).Attr → Prop) (ts : List T) (hnd : ts.Nodup) (m : Model cls)
    (hc : ∀ t, Cov (S t) (base t) (seq t) (N t) (m.comps t) (m.pending t)) :
    let r := forTypes (fun t => restoreType t (seq t)) ts m
    r.2 ≠ .undefined ∧ r.1.index = m.index ∧
    (∀ t, Cov (S t) (base t) (seq t) (N t) (r.1.comps t) (r.1.pending t)) ∧
    (∀ t, t ∉ ts → r.1.comps t = m.comps t ∧ r.1.pending t = m.pending t) ∧
    (r.2 = .done → ∀ t, t ∈ ts → Toward (S t) (base t) (r.1.comps t) (N t) ∧ r.1.pending t = []) := by
  induction ts generalizing m with
  | nil => exact ⟨by simp [forTypes], rfl, hc, by simp [forTypes], by simp⟩
  | cons t ts ih =>
    obtain ⟨h1, h2, h3, h4, h5⟩ := restoreType_cov S L base hw t (seq t) (N t) m (hc t)
    simp only [forTypes]
    generalize hx : restoreType t (seq t) m = x at h1 h2 h3 h4 h5
    obtain ⟨xm, xo⟩ := x
    simp only at h1 h2 h3 h4 h5
    have hcov : ∀ t, Cov (S t) (base t) (seq t) (N t) (xm.comps t) (xm.pending t) := by
      intro t'
      by_cases ht : t' = t
      · subst ht; exact h4
      · rw [(h3 t' ht).1, (h3 t' ht).2]; exact hc t'
    have hn1 := (List.nodup_cons.mp hnd).1
    cases xo with
    | done =>
      simp only
      obtain ⟨i1, i2, i3, i4, i5⟩ := ih (List.nodup_cons.mp hnd).2 xm hcov
      refine ⟨i1, i2.trans h2, i3, ?_, ?_⟩
      · intro t' ht'
        simp only [List.mem_cons, not_or] at ht'
        rw [(i4 t' ht'.2).1, (i4 t' ht'.2).2]
        exact h3 t' ht'.1
      · intro hd t' ht'
        rcases List.mem_cons.mp ht' with rfl | ht'
        · rw [(i4 t' hn1).1, (i4 t' hn1).2]
          exact h5 rfl
        · exact i5 hd t' ht'
    | raised e =>
      refine ⟨by simp, h2, hcov, ?_, by simp⟩
      intro t' ht'
      simp only [List.mem_cons, not_or] at ht'
      exact h3 t' ht'.1
    | undefined => exact absurd rfl h1

end

/-- The effect of the loop when it completes. -/
theorem forTypes_update_done (cached : Bool) (us : ∀ t, List (cls t).U) (seq : T → List Nat) (ts : List T)
    (hnd : ts.Nodup) (m : Model cls) :
    let r := forTypes (fun t => updateType cached t (us t) (seq t)) ts m
    r.1.index = m.index ∧ (∀ t, t ∉ ts → r.1.comps t = m.comps t) ∧
    (∀ t, (r.1.comps t).length = (m.comps t).length) ∧
    (r.2 = .done → ∀ t, t ∈ ts → (applySeq (cls t) (m.comps t) (us t) (seq t)).2.2.2 = .done ∧
      r.1.comps t = (applySeq (cls t) (m.comps t) (us t) (seq t)).1) := by
  have key : ∀ (t : T) (m : Model cls), 
      (updateType cached t (us t) (seq t) m).1.index = m.index ∧
      (∀ t', t' ≠ t → (updateType cached t (us t) (seq t) m).1.comps t' = m.comps t') ∧
      ((updateType cached t (us t) (seq t) m).1.comps t).length = (m.comps t).length ∧
      ((updateType cached t (us t) (seq t) m).2 = .done →
        (applySeq (cls t) (m.comps t) (us t) (seq t)).2.2.2 = .done ∧
        (updateType cached t (us t) (seq t) m).1.comps t = (applySeq (cls t) (m.comps t) (us t) (seq t)).1) := by
    intro t m
    unfold updateType
    cases cached with
    | false =>
      obtain ⟨a1, a2, a3, a4⟩ := applyType_core false t (us t) (seq t) m
      simp only [Bool.false_eq_true, if_false]
      rw [a1, a2, a4]
      refine ⟨rfl, ?_, ?_, ?_⟩
      · intro t' ht'; simp [Function.update_of_ne ht']
      · simp [applySeq_length]
      · intro h; exact ⟨h, by simp⟩
    | true =>
      simp only [if_true]
      cases inverses (cls t) (m.comps t) (us t) (seq t) with
      | none => simp
      | some inv =>
        obtain ⟨a1, a2, a3, a4⟩ := applyType_core true t (us t) (seq t)
          { m with pending := Function.update m.pending t (m.pending t ++ inv) }
        simp only at a1 a2 a3 a4 ⊢
        rw [a1, a2, a4]
        refine ⟨rfl, ?_, ?_, ?_⟩
        · intro t' ht'; simp [Function.update_of_ne ht']
        · simp [applySeq_length]
        · intro h; exact ⟨h, by simp⟩
  induction ts generalizing m with
  | nil => simp [forTypes]
  | cons t ts ih =>
    obtain ⟨k1, k2, k3, k4⟩ := key t m
    simp only [forTypes]
    generalize hx : updateType cached t (us t) (seq t) m = x at k1 k2 k3 k4
    obtain ⟨xm, xo⟩ := x
    simp only at k1 k2 k3 k4
    have hn1 := (List.nodup_cons.mp hnd).1
    have hlen : ∀ t', (xm.comps t').length = (m.comps t').length := by
      intro t'
      by_cases ht : t' = t
      · subst ht; exact k3
      · rw [k2 t' ht]
    cases xo with
    | done =>
      simp only
      obtain ⟨i1, i2, i3, i4⟩ := ih (List.nodup_cons.mp hnd).2 xm
      refine ⟨i1.trans k1, ?_, fun t' => (i3 t').trans (hlen t'), ?_⟩
      · intro t' ht'
        simp only [List.mem_cons, not_or] at ht'
        rw [i2 t' ht'.2, k2 t' ht'.1]
      · intro hd t' ht'
        rcases List.mem_cons.mp ht' with rfl | ht'
        · rw [i2 t' hn1]; exact k4 rfl
        · have hne : t' ≠ t := fun h => hn1 (h ▸ ht')
          rw [← k2 t' hne]
          exact i4 hd t' ht'
    | raised e =>
      refine ⟨k1, ?_, hlen, by simp⟩
      intro t' ht'
      simp only [List.mem_cons, not_or] at ht'
      exact k2 t' ht'.1
    | undefined =>
      refine ⟨k1, ?_, hlen, by simp⟩
      intro t' ht'
      simp only [List.mem_cons, not_or] at ht'
      exact k2 t' ht'.1

end PGM.Update
