import Verif.Cache.Model

/-!
# Lemmas for property C11
-/

set_option linter.unusedSectionVars false

namespace PGM.Cache

open PGM.Update

variable {K : Type} [Field K] [DecidableEq K]

/-! ## The flags returned by component updates are sound -/

theorem setSide_same (c : Bool) (x : Int) (h : (setSide c x).2 = false) : (setSide c x).1 = c := by
  unfold setSide at h ⊢
  split at h
  · rename_i hx
    simp only [hx, ne_eq, not_false_eq_true, if_true] at h ⊢
    exact (by simpa using h : c = toBool x).symm
  · rename_i hx
    simp [hx]

theorem setStatus_same (c : Bool) (x : Int) (h : (setStatus c x).2 = false) : (setStatus c x).1 = c := by
  unfold setStatus at h ⊢
  split at h
  · rename_i hx; simp [hx]
  · split at h
    · rename_i hx hy; simp [hx, hy]
    · simp at h

theorem setTap_same (a b c x : Int) (h : (setTap a b c x).2 = false) : (setTap a b c x).1 = c := by
  unfold setTap at h ⊢
  split at h
  · rename_i hx; simp [hx]
  · simp at h

theorem updateParam_same (v t : Option K) (h : (updateParam v t).2 = false) : (updateParam v t).1 = t := by
  unfold updateParam at h ⊢
  split at h
  · rename_i hx; simp [hx]
  · simp at h

theorem topo_sound (t : CompType) (c : (classOf K t).C) (u : (classOf K t).U)
    (h : ((classOf K t).update c u).2.1.topo = false) :
    topoView K t ((classOf K t).update c u).1 = topoView K t c := by
  cases t with
  | line | asymLine | link | genericBranch =>
    change Branch at c; change BranchUpdate at u
    change ((setSide c.fromStatus u.fromStatus).2 || (setSide c.toStatus u.toStatus).2) = false at h
    simp only [Bool.or_eq_false_iff] at h
    change [(setSide c.fromStatus u.fromStatus).1, (setSide c.toStatus u.toStatus).1] = [c.fromStatus, c.toStatus]
    rw [setSide_same _ _ h.1, setSide_same _ _ h.2]
  | transformer =>
    change Transformer at c; change TransformerUpdate at u
    change ((setSide c.fromStatus u.fromStatus).2 || (setSide c.toStatus u.toStatus).2) = false at h
    simp only [Bool.or_eq_false_iff] at h
    change [(setSide c.fromStatus u.fromStatus).1, (setSide c.toStatus u.toStatus).1] = [c.fromStatus, c.toStatus]
    rw [setSide_same _ _ h.1, setSide_same _ _ h.2]
  | threeWindingTransformer =>
    change Transformer3 at c; change Transformer3Update at u
    change ((setSide c.status1 u.status1).2 || (setSide c.status2 u.status2).2 || (setSide c.status3 u.status3).2) = false
      at h
    simp only [Bool.or_eq_false_iff] at h
    change [(setSide c.status1 u.status1).1, (setSide c.status2 u.status2).1, (setSide c.status3 u.status3).1] =
      [c.status1, c.status2, c.status3]
    rw [setSide_same _ _ h.1.1, setSide_same _ _ h.1.2, setSide_same _ _ h.2]
  | source =>
    change Source K at c; change SourceUpdate K at u
    change (setStatus c.status u.status).2 = false at h
    change [(setStatus c.status u.status).1] = [c.status]
    rw [setStatus_same _ _ h]
  | _ => rfl

theorem param_sound (t : CompType) (c : (classOf K t).C) (u : (classOf K t).U)
    (h : ((classOf K t).update c u).2.1.topo = false) (hp : ((classOf K t).update c u).2.1.param = false) :
    paramData K t ((classOf K t).update c u).1 = paramData K t c := by
  cases t with
  | line | asymLine | link | genericBranch =>
    change Branch at c; change BranchUpdate at u
    change ((setSide c.fromStatus u.fromStatus).2 || (setSide c.toStatus u.toStatus).2) = false at h
    simp only [Bool.or_eq_false_iff] at h
    change (⟨c.fixed, (setSide c.fromStatus u.fromStatus).1, (setSide c.toStatus u.toStatus).1⟩ : Branch) = c
    rw [setSide_same _ _ h.1, setSide_same _ _ h.2]
  | transformer =>
    change Transformer at c; change TransformerUpdate at u
    change ((setSide c.fromStatus u.fromStatus).2 || (setSide c.toStatus u.toStatus).2) = false at h
    change ((setTap c.fixed.tapMin c.fixed.tapMax c.tapPos u.tapPos).2 ||
      ((setSide c.fromStatus u.fromStatus).2 || (setSide c.toStatus u.toStatus).2)) = false at hp
    simp only [Bool.or_eq_false_iff] at h hp
    change (⟨c.fixed, (setSide c.fromStatus u.fromStatus).1, (setSide c.toStatus u.toStatus).1,
      (setTap c.fixed.tapMin c.fixed.tapMax c.tapPos u.tapPos).1⟩ : Transformer) = c
    rw [setSide_same _ _ h.1, setSide_same _ _ h.2, setTap_same _ _ _ _ hp.1]
  | threeWindingTransformer =>
    change Transformer3 at c; change Transformer3Update at u
    change ((setSide c.status1 u.status1).2 || (setSide c.status2 u.status2).2 || (setSide c.status3 u.status3).2) = false
      at h
    change ((setTap c.fixed.tapMin c.fixed.tapMax c.tapPos u.tapPos).2 || ((setSide c.status1 u.status1).2 ||
      (setSide c.status2 u.status2).2 || (setSide c.status3 u.status3).2)) = false at hp
    simp only [Bool.or_eq_false_iff] at h hp
    change (⟨c.fixed, (setSide c.status1 u.status1).1, (setSide c.status2 u.status2).1, (setSide c.status3 u.status3).1,
      (setTap c.fixed.tapMin c.fixed.tapMax c.tapPos u.tapPos).1⟩ : Transformer3) = c
    rw [setSide_same _ _ h.1.1, setSide_same _ _ h.1.2, setSide_same _ _ h.2, setTap_same _ _ _ _ hp.1]
  | shunt =>
    change Shunt K at c; change ShuntUpdate K at u
    change (((updateParam u.b0 c.b0).2 || (updateParam u.g0 c.g0).2 || (updateParam u.b1 c.b1).2 || (updateParam u.g1 c.g1).2)
      || (setStatus c.status u.status).2) = false at hp
    simp only [Bool.or_eq_false_iff] at hp
    obtain ⟨⟨⟨⟨h4, h3⟩, h2⟩, h1⟩, hs⟩ := hp
    change (⟨c.fixed, (setStatus c.status u.status).1, (updateParam u.g1 c.g1).1, (updateParam u.b1 c.b1).1,
      (updateParam u.g0 c.g0).1, (updateParam u.b0 c.b0).1⟩ : Shunt K) = c
    rw [setStatus_same _ _ hs, updateParam_same _ _ h1, updateParam_same _ _ h2, updateParam_same _ _ h3,
      updateParam_same _ _ h4]
  | source =>
    change Source K at c; change SourceUpdate K at u
    change ((u.sk.isSome || u.rxRatio.isSome || u.z01Ratio.isSome) || (setStatus c.status u.status).2) = false at hp
    simp only [Bool.or_eq_false_iff, Option.isSome_eq_false_iff, Option.isNone_iff_eq_none] at hp
    obtain ⟨⟨⟨h1, h2⟩, h3⟩, _⟩ := hp
    change (⟨c.fixed.id, assignIfGiven u.sk c.sk, assignIfGiven u.rxRatio c.rxRatio,
      assignIfGiven u.z01Ratio c.z01Ratio⟩ : SourceImpedance K) = ⟨c.fixed.id, c.sk, c.rxRatio, c.z01Ratio⟩
    rw [h1, h2, h3]
    rfl
  | _ => rfl

theorem throws_only_fault (t : CompType) (c : (classOf K t).C) (u : (classOf K t).U)
    (h : ((classOf K t).update c u).2.2 = true) : t = .fault := by
  cases t <;> first | rfl | cases h

/-! ## Update loops -/

/-- What an update loop does to the connection statuses and parameters of the components of type `t`. -/
theorem applySeq_views (t : CompType) (us : List (classOf K t).U) :
    ∀ (seq : List Nat) (cs : List (classOf K t).C),
    let r := applySeq (classOf K t) cs us seq
    r.1.length = cs.length ∧ (∀ k ∈ r.2.1, k < cs.length) ∧
    (r.2.2.2 = .done →
      (∀ k, k ∉ r.2.1 → r.1[k]?.map (paramData K t) = cs[k]?.map (paramData K t)) ∧
      (r.2.2.1.topo = false → ∀ k : Nat, r.1[k]?.map (topoView K t) = cs[k]?.map (topoView K t)) ∧
      (r.2.2.1.topo = false → r.2.2.1.param = false → r.2.1 = [])) ∧
    (∀ e, r.2.2.2 = .raised e → t = .fault) := by
  induction us with
  | nil => intro seq cs; simp [applySeq]
  | cons u us ih =>
    intro seq cs
    cases seq with
    | nil => simp [applySeq]
    | cons i is =>
      cases hi : cs[i]? with
      | none => simp [applySeq, hi]
      | some c =>
        have hil := (List.getElem?_eq_some_iff.mp hi).1
        simp only [applySeq, hi]
        by_cases ht : ((classOf K t).update c u).2.2 = true
        · have := throws_only_fault t c u ht
          simp [ht, this]
        · simp only [ht, Bool.false_eq_true, if_false]
          obtain ⟨h1, h2, h3, h4⟩ := ih is (cs.set i ((classOf K t).update c u).1)
          simp only [List.length_set] at h1 h2
          refine ⟨h1, ?_, ?_, h4⟩
          · intro k hk
            rcases List.mem_append.mp hk with hk | hk
            · split at hk
              · rw [List.mem_singleton.mp hk]; exact hil
              · cases hk
            · exact h2 k hk
          · intro hd
            obtain ⟨a1, a2, a3⟩ := h3 hd
            refine ⟨?_, ?_, ?_⟩
            · intro k hk
              rw [List.mem_append, not_or] at hk
              rw [a1 k hk.2, List.getElem?_set]
              split
              · rename_i hik
                subst hik
                have hflag : ¬ ((((classOf K t).update c u).2.1.param || ((classOf K t).update c u).2.1.topo) = true) := by
                  intro hf
                  apply hk.1
                  rw [if_pos hf]
                  simp
                simp only [Bool.or_eq_true, not_or, Bool.not_eq_true] at hflag
                rw [hi]
                simp only [Option.map_some]
                rw [param_sound t c u hflag.2 hflag.1]
              · rfl
            · intro hf k
              simp only [Change.or, Bool.or_eq_false_iff] at hf
              rw [a2 hf.2 k, List.getElem?_set]
              split
              · rename_i hik
                subst hik
                rw [hi]
                simp only [Option.map_some]
                rw [topo_sound t c u hf.1]
              · rfl
            · intro hf hp
              simp only [Change.or, Bool.or_eq_false_iff] at hf hp
              rw [a3 hf.2 hp.2]
              simp [hf.1, hp.1]

/-- What operations on a model may do as far as the caches are concerned. -/
structure Evolves (m m' : Model (classOf K)) : Prop where
  len : ∀ t, (m'.comps t).length = (m.comps t).length
  prev : m'.status.prev = m.status.prev
  topo : m'.status.topo = true → m.status.topo = true ∧
    ∀ t (k : Nat), (m'.comps t)[k]?.map (topoView K t) = (m.comps t)[k]?.map (topoView K t)
  keep : ∀ t k, k ∈ m.status.changed t → k ∈ m'.status.changed t
  range : ∀ t k, k ∈ m'.status.changed t → k ∈ m.status.changed t ∨ k < (m.comps t).length
  tracked : ∀ t (k : Nat), k ∉ m'.status.changed t →
    (m'.comps t)[k]?.map (paramData K t) = (m.comps t)[k]?.map (paramData K t)
  valid : ∀ sym, valid m'.status sym = true → valid m.status sym = true ∧
    ∀ t (k : Nat), (m'.comps t)[k]?.map (paramData K t) = (m.comps t)[k]?.map (paramData K t)

theorem Evolves.refl (m : Model (classOf K)) : Evolves m m :=
  ⟨fun _ => rfl, rfl, fun h => ⟨h, fun _ _ => rfl⟩, fun _ _ h => h, fun _ _ h => Or.inl h, fun _ _ _ => rfl,
    fun _ h => ⟨h, fun _ _ => rfl⟩⟩

theorem Evolves.trans {m m' m'' : Model (classOf K)} (a : Evolves m m') (b : Evolves m' m'') : Evolves m m'' where
  len := fun t => (b.len t).trans (a.len t)
  prev := b.prev.trans a.prev
  topo := fun h => by
    obtain ⟨h1, h2⟩ := b.topo h
    obtain ⟨h3, h4⟩ := a.topo h1
    exact ⟨h3, fun t k => (h2 t k).trans (h4 t k)⟩
  keep := fun t k h => b.keep t k (a.keep t k h)
  range := fun t k h => by
    rcases b.range t k h with h | h
    · exact a.range t k h
    · exact Or.inr (by rw [← a.len t]; exact h)
  tracked := fun t k h => (b.tracked t k h).trans (a.tracked t k (fun hc => h (b.keep t k hc)))
  valid := fun sym h => by
    obtain ⟨h1, h2⟩ := b.valid sym h
    obtain ⟨h3, h4⟩ := a.valid sym h1
    exact ⟨h3, fun t k => (h2 t k).trans (h4 t k)⟩

/-- Only the status, pending updates and cached changes differ, and the status only by invalidation. -/
theorem Evolves.weaken (m m' : Model (classOf K)) (hc : m'.comps = m.comps) (hp : m'.status.prev = m.status.prev)
    (hch : m'.status.changed = m.status.changed) (ht : m'.status.topo = true → m.status.topo = true)
    (hv : ∀ sym, Cache.valid m'.status sym = true → Cache.valid m.status sym = true) : Evolves m m' where
  len := fun t => by rw [hc]
  prev := hp
  topo := fun h => ⟨ht h, fun t k => by rw [hc]⟩
  keep := fun t k h => by rw [hch]; exact h
  range := fun t k h => by rw [hch] at h; exact Or.inl h
  tracked := fun t k h => by rw [hc]
  valid := fun sym h => ⟨hv sym h, fun t k => by rw [hc]⟩

/-- The status after an update. -/
theorem status_update (s : Status CompType) (ch : Change) :
    (s.update ch).prev = s.prev ∧ (s.update ch).changed = s.changed ∧
    ((s.update ch).topo = true → s.topo = true ∧ ch.topo = false) ∧
    (∀ sym, valid (s.update ch) sym = true → valid s sym = true ∧ ch.topo = false ∧ ch.param = false) := by
  unfold Status.update
  split
  · refine ⟨rfl, rfl, by simp, ?_⟩
    intro sym h; cases sym <;> simp [valid] at h
  · rename_i h
    simp only [Bool.or_eq_true, Bool.not_eq_true', not_or, Bool.not_eq_true, Bool.not_eq_false] at h
    split
    · refine ⟨rfl, rfl, fun _ => ⟨h.2, h.1⟩, ?_⟩
      intro sym h'; cases sym <;> simp [valid] at h'
    · rename_i hp
      simp only [Bool.not_eq_true] at hp
      refine ⟨rfl, rfl, fun _ => ⟨h.2, h.1⟩, ?_⟩
      intro sym h'
      exact ⟨by cases sym <;> simpa [valid] using h', h.1, hp⟩

theorem fault_topoView (c : (classOf K .fault).C) : topoView K .fault c = [] := rfl

theorem applyType_evolves (cached : Bool) (t : CompType) (us : List (classOf K t).U) (seq : List Nat)
    (m : Model (classOf K)) (h : (applyType cached t us seq m).2 ≠ .undefined) :
    Evolves m (applyType cached t us seq m).1 := by
  obtain ⟨h1, h2, h3, h4⟩ := applySeq_views t us seq (m.comps t)
  unfold applyType at h ⊢
  simp only at h ⊢
  generalize applySeq (classOf K t) (m.comps t) us seq = r at *
  obtain ⟨cs, ch, chg, o⟩ := r
  simp only at *
  -- the components with the new list, before the flags are changed
  have hlen : ∀ t', ((Function.update m.comps t cs) t').length = (m.comps t').length := by
    intro t'
    by_cases htt : t' = t
    · subst htt; simp [h1]
    · simp [Function.update_of_ne htt]
  have hmem : ∀ t' k, k ∈ Function.update m.status.changed t (m.status.changed t ++ ch) t' ↔
      k ∈ m.status.changed t' ∨ (t' = t ∧ k ∈ ch) := by
    intro t' k
    by_cases htt : t' = t
    · subst htt; simp
    · simp [Function.update_of_ne htt, htt]
  have htracked : (∀ k, k ∉ ch → cs[k]?.map (paramData K t) = (m.comps t)[k]?.map (paramData K t)) →
      ∀ t' (k : Nat), k ∉ Function.update m.status.changed t (m.status.changed t ++ ch) t' →
      ((Function.update m.comps t cs) t')[k]?.map (paramData K t') = (m.comps t')[k]?.map (paramData K t') := by
    intro hcs t' k hk
    rw [hmem, not_or] at hk
    by_cases htt : t' = t
    · subst htt
      simp only [Function.update_self]
      exact hcs k (fun hc => hk.2 ⟨rfl, hc⟩)
    · rw [Function.update_of_ne htt]
  have hsame : ∀ {β : CompType → Type} (f : (t : CompType) → (classOf K t).C → β t),
      (∀ k : Nat, cs[k]?.map (f t) = (m.comps t)[k]?.map (f t)) →
      ∀ t' (k : Nat), ((Function.update m.comps t cs) t')[k]?.map (f t') = (m.comps t')[k]?.map (f t') := by
    intro β f hf t' k
    by_cases htt : t' = t
    · subst htt; simp only [Function.update_self]; exact hf k
    · rw [Function.update_of_ne htt]
  have hrange : ∀ t' k, k ∈ Function.update m.status.changed t (m.status.changed t ++ ch) t' →
      k ∈ m.status.changed t' ∨ k < (m.comps t').length := by
    intro t' k hk
    rcases (hmem t' k).mp hk with hk' | ⟨rfl, hk'⟩
    · exact Or.inl hk'
    · exact Or.inr (h2 k hk')
  cases o with
  | done =>
    obtain ⟨a1, a2, a3⟩ := h3 rfl
    simp only
    obtain ⟨b1, b2, b3, b4⟩ := status_update
      { m.status with changed := Function.update m.status.changed t (m.status.changed t ++ ch) } chg
    constructor
    · exact hlen
    · exact b1
    · intro hv
      obtain ⟨b5, b6⟩ := b3 hv
      exact ⟨b5, hsame (topoView K) (a2 b6)⟩
    · intro t' k hk
      simp only [b2]
      exact (hmem t' k).mpr (Or.inl hk)
    · intro t' k hk
      simp only [b2] at hk
      exact hrange t' k hk
    · intro t' k hk
      simp only [b2] at hk
      exact htracked a1 t' k hk
    · intro sym hv
      obtain ⟨b5, b6, b7⟩ := b4 sym hv
      refine ⟨by cases sym <;> simpa [valid] using b5, ?_⟩
      have := a3 b6 b7
      exact hsame (paramData K) (fun k => a1 k (by rw [this]; simp))
  | raised e =>
    have htf := h4 e rfl
    subst htf
    have hp : ∀ k : Nat, cs[k]?.map (paramData K .fault) = (m.comps .fault)[k]?.map (paramData K .fault) := by
      intro k
      by_cases hk : k < (m.comps .fault).length
      · rw [List.getElem?_eq_getElem hk, List.getElem?_eq_getElem (by rw [h1]; exact hk)]; rfl
      · rw [List.getElem?_eq_none (by omega), List.getElem?_eq_none (by omega)]
    have hq : ∀ k : Nat, cs[k]?.map (topoView K .fault) = (m.comps .fault)[k]?.map (topoView K .fault) := by
      intro k
      by_cases hk : k < (m.comps .fault).length
      · rw [List.getElem?_eq_getElem hk, List.getElem?_eq_getElem (by rw [h1]; exact hk)]; rfl
      · rw [List.getElem?_eq_none (by omega), List.getElem?_eq_none (by omega)]
    simp only
    constructor
    · exact hlen
    · rfl
    · intro hv
      exact ⟨hv, hsame (topoView K) hq⟩
    · intro t' k hk
      exact (hmem t' k).mpr (Or.inl hk)
    · exact hrange
    · exact htracked (fun k _ => hp k)
    · intro sym hv
      exact ⟨by cases sym <;> simpa [valid] using hv, hsame (paramData K) hp⟩
  | undefined => exact absurd rfl h

theorem updateType_evolves (cached : Bool) (t : CompType) (us : List (classOf K t).U) (seq : List Nat)
    (m : Model (classOf K)) (h : (updateType cached t us seq m).2 ≠ .undefined) :
    Evolves m (updateType cached t us seq m).1 := by
  unfold updateType at h ⊢
  cases cached with
  | false => exact applyType_evolves _ _ _ _ _ h
  | true =>
    simp only [if_true] at h ⊢
    split at h
    · exact absurd rfl h
    · rename_i inv hinv
      exact (Evolves.weaken m { m with pending := Function.update m.pending t (m.pending t ++ inv) } rfl rfl rfl
        (fun h => h) (fun _ h => h)).trans (applyType_evolves _ _ _ _ _ h)

theorem forTypes_evolves (f : CompType → Model (classOf K) → Model (classOf K) × Outcome)
    (hf : ∀ t m, (f t m).2 ≠ .undefined → Evolves m (f t m).1) (ts : List CompType) :
    ∀ m, (forTypes f ts m).2 ≠ .undefined → Evolves m (forTypes f ts m).1 := by
  induction ts with
  | nil => intro m _; exact Evolves.refl m
  | cons t ts ih =>
    intro m h
    have h1 := hf t m
    simp only [forTypes] at h ⊢
    generalize f t m = x at h h1
    obtain ⟨xm, xo⟩ := x
    cases xo with
    | done => exact (h1 (by simp)).trans (ih xm h)
    | raised e => exact h1 (by simp)
    | undefined => exact absurd rfl h

theorem permanentUpdate_evolves (d : Dataset (classOf K)) (m : Model (classOf K))
    (h : (permanentUpdate allTypes d m).2 ≠ .undefined) : Evolves m (permanentUpdate allTypes d m).1 := by
  unfold permanentUpdate at h ⊢
  simp only at h ⊢
  split
  · exact Evolves.refl m
  · rename_i seq hs
    simp only [hs] at h
    exact forTypes_evolves _ (fun t m h => updateType_evolves _ _ _ _ _ h) _ m h

theorem setup_evolves (p : Plan (classOf K)) (s : Nat) (j : Job (classOf K))
    (h : (setup allTypes p s j).2 ≠ .undefined) : Evolves j.model (setup allTypes p s j).1.model := by
  unfold setup at h ⊢
  split
  · exact Evolves.refl _
  · rename_i seq hs
    simp only [hs] at h
    exact forTypes_evolves _ (fun t m h => updateType_evolves _ _ _ _ _ h) _ _ h

theorem restoreType_evolves (t : CompType) (seq : List Nat) (m : Model (classOf K))
    (h : (restoreType t seq m).2 ≠ .undefined) : Evolves m (restoreType t seq m).1 := by
  have h1 := updateType_evolves false t (m.pending t) seq m
  unfold restoreType at h ⊢
  split
  · exact Evolves.refl _
  · rename_i hp
    simp only [hp, if_false] at h
    generalize updateType false t (m.pending t) seq m = x at h h1
    obtain ⟨xm, xo⟩ := x
    cases xo with
    | done => exact (h1 (by simp)).trans (Evolves.weaken xm _ rfl rfl rfl (fun h => h) (fun _ h => h))
    | raised e => exact h1 (by simp)
    | undefined => exact absurd rfl h

theorem winddown_evolves (p : Plan (classOf K)) (j : Job (classOf K))
    (h : (winddown allTypes p j).2 ≠ .undefined) : Evolves j.model (winddown allTypes p j).1.model := by
  unfold winddown restoreComponents at h ⊢
  have h1 := forTypes_evolves (fun t => restoreType t (p.view j.cur t)) (fun t m h => restoreType_evolves _ _ _ h)
    allTypes j.model
  generalize forTypes (fun t => restoreType t (p.view j.cur t)) allTypes j.model = x at h h1
  obtain ⟨xm, xo⟩ := x
  cases xo with
  | done =>
    obtain ⟨b1, b2, b3, b4⟩ := status_update xm.status xm.cachedChange
    exact (h1 (by simp)).trans (Evolves.weaken xm _ rfl b1 b2 (fun h => (b3 h).1) (fun sym h => (b4 sym h).1))
  | raised e => exact h1 (by simp)
  | undefined => exact absurd rfl h

end PGM.Cache
