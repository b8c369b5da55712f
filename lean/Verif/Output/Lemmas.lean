import Verif.Output.Model
import Verif.Input.Props
import Mathlib.Data.List.Nodup
import Mathlib.Tactic.SplitIfs

/-!
# Sequence numbers of a container that was built from input data
-/

namespace PGM.Output

open PGM.Container PGM.Input PGM.Update PGM.Topology PGM.PowerFlow PGM.Component

variable {K : Type} {σ : Symm}

theorem build_inv {D : CompType → List (Elem K)} {c : Container (Comp K)} (h : build D = .ok c) :
    Inv c (flat D allTypes) := by
  have := build_outcome D allTypes [] (Container.empty 22) (by simp)
    ⟨inv_empty, by simp [flat], by simp [flat]⟩ (by simp)
  change match build D with
    | .ok c' => Good D c' (flat D allTypes) ∧ ∀ t, isRegulator t = true → ((D t).map (·.object)).Nodup
    | .error err => ∃ t, ∃ e ∈ D t, Explains D t e err at this
  rw [h] at this
  exact this.1.inv

/-- An ID belongs to one component only. -/
theorem id_unique {D : CompType → List (Elem K)} {c : Container (Comp K)} (h : build D = .ok c) {t t' : CompType} {e e' : Elem K}
    (he : e ∈ D t) (he' : e' ∈ D t') (hid : e.id = e'.id) : t = t' ∧ e = e' := by
  have := unique_of_nodup (build_inv h).nodup (p := (t, e)) (q := (t', e')) (mem_flat.mpr ⟨mem_allTypes t, he⟩)
    (mem_flat.mpr ⟨mem_allTypes t', he'⟩) hid
  exact ⟨congrArg Prod.fst this, congrArg Prod.snd this⟩

theorem pos_unique {D : CompType → List (Elem K)} {c : Container (Comp K)} (h : build D = .ok c) {t : CompType} {e : Elem K} {k k' : Nat}
    (hk : (D t)[k]? = some e) (hk' : (D t)[k']? = some e) : k = k' := by
  have hi := (build_inv h).nodup
  rw [List.nodup_iff_injective_get] at hi
  have hn : ((D t).map (·.id)).Nodup := by
    have : ((D t).map (·.id)).Sublist ((flat D allTypes).map (·.2.id)) := by
      have hs : ((D t).map fun e => (t, e)).Sublist (flat D allTypes) := by
        obtain ⟨l1, l2, hl⟩ := List.append_of_mem (mem_allTypes t)
        rw [hl]
        simp only [flat, List.flatMap_append, List.flatMap_cons]
        exact (List.sublist_append_left _ _).trans (List.sublist_append_right _ _)
      simpa [Function.comp_def] using hs.map (·.2.id)
    exact this.nodup (build_inv h).nodup
  have h1 : k < ((D t).map (·.id)).length := by
    have := (List.getElem?_eq_some_iff.mp hk).1
    simpa using this
  exact (List.getElem?_inj h1 hn).mp (by simp [hk, hk'])

/-- The place of a component in the container is its type and its place in the input. -/
theorem map_eq {D : CompType → List (Elem K)} {c : Container (Comp K)} (h : build D = .ok c) {t : CompType} {e : Elem K} {k : Nat}
    (hk : (D t)[k]? = some e) : c.map e.id = some ⟨group t, k⟩ := by
  have hi := build_inv h
  have hmem : (t, e) ∈ flat D allTypes := mem_flat.mpr ⟨mem_allTypes t, List.mem_of_getElem? hk⟩
  cases hm : c.map e.id with
  | none =>
    have := (hi.ref.none_iff e.id).mp hm
    unfold regOf at this
    rw [Option.map_eq_none_iff, List.find?_eq_none] at this
    exact absurd (by simp) (this _ hmem)
  | some idx =>
    obtain ⟨vec, x, h1, h2, h3⟩ := hi.ref.some_val e.id idx hm
    unfold regOf at h3
    rw [Option.map_eq_some_iff] at h3
    obtain ⟨p, hp1, hp2⟩ := h3
    obtain ⟨hp3, hp4⟩ := find_some hp1
    have := unique_of_nodup hi.nodup hp3 hmem hp4
    subst this
    simp only [Prod.mk.injEq, toComp] at hp2
    obtain ⟨hg, hx⟩ := hp2
    rw [← hg, build_contents D c h t] at h1
    rw [← Option.some.inj h1, ← hx, List.getElem?_map, Option.map_eq_some_iff] at h2
    obtain ⟨e', he1, he2⟩ := h2
    have hee : e' = e := by simpa using he2
    subst hee
    have := pos_unique h hk he1
    cases idx
    simp only at hg this
    rw [← hg, this]

/-- The types of a base class are neighbours, so a type starts where its number of predecessors in the base class says. -/
theorem seq_ok {D : CompType → List (Elem K)} {c : Container (Comp K)} (h : build D = .ok c) {t : CompType} {e : Elem K} {k : Nat}
    (hk : (D t)[k]? = some e) :
    ∃ o, getStartIdx isBaseOf (baseOf t) (.only t) c = some o ∧ seqById (baseOf t) c e.id = some (o + k) ∧
      getItemBySeq isBaseOf (.only t) c k = .ok ⟨t, e⟩ ∧ size isBaseOf (.only t) c = (D t).length ∧
      ∀ {β : Type} (f : Comp K → Option β), registered (baseOf t) c f (o + k) = f ⟨t, e⟩ := by
  have hlen : c.vectors.length = 22 := (build_inv h).ref.len
  have hcont := build_contents D c h t
  have hkl : k < (D t).length := (List.getElem?_eq_some_iff.mp hk).1
  have hsub : subClsPos isBaseOf (.only t) 22 = group t := by cases t <;> decide
  have honly : ValidIdx isBaseOf (.only t) c ⟨group t, k⟩ := ⟨by simp [isBaseOf], _, hcont, by simpa using hkl⟩
  have hbase : ValidIdx isBaseOf (baseOf t) c ⟨group t, k⟩ := ⟨by cases t <;> rfl, _, hcont, by simpa using hkl⟩
  obtain ⟨o, s, ho, hs, hos⟩ := start_idx_offset isBaseOf (baseOf t) (.only t) c ⟨group t, k⟩ honly (by
    intro g h1 h2; rw [hlen, hsub] at h1; simp only at h2; omega)
  have hcnt : ∀ g, cnt isBaseOf (.only t) c g = if g = group t then (D t).length else 0 := by
    intro g
    unfold cnt
    by_cases hg : g = group t
    · subst hg; simp [isBaseOf, List.getD_eq_getElem?_getD, hcont]
    · simp [isBaseOf, hg]
  have hps : ∀ n, psum (cnt isBaseOf (.only t) c) n = if group t < n then (D t).length else 0 := by
    intro n
    induction n with
    | zero => simp [psum]
    | succ n ih =>
      simp only [psum, ih, hcnt]
      split_ifs <;> omega
  have hsk : s = k := by
    have hg : group t < 22 + 1 := by have := group_lt t; omega
    have : getSeq isBaseOf (.only t) c ⟨group t, k⟩ = some k := by
      simp [getSeq, cumSize_tab, hlen, hg, hps]
    rw [this] at hs
    exact (Option.some.inj hs).symm
  subst hsk
  obtain ⟨s1, ha1, ha2, ha3⟩ := seq_of_idx isBaseOf (.only t) c _ honly
  rw [hs] at ha1
  cases ha1
  obtain ⟨s2, hb1, hb2, hb3⟩ := seq_of_idx isBaseOf (baseOf t) c _ hbase
  rw [hos] at hb1
  cases hb1
  have hitem : ∀ cls, isBaseOf cls (group t) = true → getItem isBaseOf cls c ⟨group t, s⟩ = .ok ⟨t, e⟩ := by
    intro cls hc
    simp [getItem, hc, hcont, hk]
  refine ⟨o, ho, ?_, ?_, ?_, ?_⟩
  · simp [seqById, map_eq h hk, hos]
  · simp only [getItemBySeq, ha3]
    exact hitem _ (by simp [isBaseOf])
  · rw [size_eq, hlen, hps, if_pos (group_lt t)]
  · intro β f
    have : (iter isBaseOf (baseOf t) c)[o + s]? = some (.ok ⟨t, e⟩) := by
      unfold iter
      rw [List.getElem?_map, List.getElem?_range hb2, Option.map_some]
      congr 1
      simp only [getItemBySeq, hb3]
      exact hitem _ hbase.1
    simp [registered, this]

/-- Record `k` of a type is made from component `k` of the type and the entry of its own sequence number. -/
theorem produce_eq {D : CompType → List (Elem K)} {c : Container (Comp K)} (h : build D = .ok c) {t : CompType} {e : Elem K} {k s : Nat}
    (hk : (D t)[k]? = some e) (hs : seqById (baseOf t) c e.id = some s) {β γ : Type} (seq : Nat → Option β) (f : Comp K → β → Option γ) :
    (produce t c seq f)[k]? = some ((seq s).bind fun y => f ⟨t, e⟩ y) := by
  obtain ⟨o, h1, h2, h3, h4, _⟩ := seq_ok h hk
  rw [h2] at hs
  cases hs
  have hkl : k < (D t).length := (List.getElem?_eq_some_iff.mp hk).1
  unfold produce
  rw [List.getElem?_map, List.getElem?_range (by rw [h4]; exact hkl), Option.map_some]
  simp [h1, h3, Except.toOption]

theorem size_only {D : CompType → List (Elem K)} {c : Container (Comp K)} (h : build D = .ok c) (t : CompType) :
    size isBaseOf (.only t) c = (D t).length := by
  have hlen : c.vectors.length = 22 := (build_inv h).ref.len
  have hcont := build_contents D c h t
  have hps : ∀ n, psum (cnt isBaseOf (.only t) c) n = if group t < n then (D t).length else 0 := by
    intro n
    induction n with
    | zero => simp [psum]
    | succ n ih =>
      have hcnt : cnt isBaseOf (.only t) c n = if n = group t then (D t).length else 0 := by
        unfold cnt
        by_cases hg : n = group t
        · subst hg; simp [isBaseOf, List.getD_eq_getElem?_getD, hcont]
        · simp [isBaseOf, hg]
      simp only [psum, ih, hcnt]
      split_ifs <;> omega
  rw [size_eq, hlen, hps, if_pos (group_lt t)]

/-- Every record belongs to a component of the input. -/
theorem mem_produce {D : CompType → List (Elem K)} {c : Container (Comp K)} (h : build D = .ok c) {t : CompType} {β γ : Type}
    {seq : Nat → Option β} {f : Comp K → β → Option γ} {r : γ} (hr : some r ∈ produce t c seq f) :
    ∃ (k : Nat) (e : Elem K) (s : Nat) (y : β), (D t)[k]? = some e ∧ seqById (baseOf t) c e.id = some s ∧ seq s = some y ∧ f ⟨t, e⟩ y = some r := by
  obtain ⟨k, hk⟩ := List.mem_iff_getElem?.mp hr
  have hkl : k < (D t).length := by
    have := (List.getElem?_eq_some_iff.mp hk).1
    simpa [produce, size_only h] using this
  obtain ⟨o, _, h2, _⟩ := seq_ok h (List.getElem?_eq_getElem hkl)
  rw [produce_eq h (List.getElem?_eq_getElem hkl) h2] at hk
  have := Option.some.inj hk
  rw [Option.bind_eq_some_iff] at this
  obtain ⟨y, hy1, hy2⟩ := this
  exact ⟨k, _, _, y, List.getElem?_eq_getElem hkl, h2, hy1, hy2⟩

theorem produce_length {D : CompType → List (Elem K)} {c : Container (Comp K)} (h : build D = .ok c) (t : CompType) {β γ : Type}
    (seq : Nat → Option β) (f : Comp K → β → Option γ) : (produce t c seq f).length = (D t).length := by
  simp [produce, size_only h]

end PGM.Output
