import Verif.Topology.Model
import Verif.Index.Props
import Mathlib.Data.List.Nodup
import Mathlib.Tactic.SplitIfs
import Mathlib.Tactic.Push
import Mathlib.Tactic.Set

/-!
# The coupling of appliances and sensors
-/

namespace PGM.Topology

theorem store_fold (g : Nat) (comps : List Nat) (hn : comps.Nodup) (l : List Nat) (k : Nat) (c : Nat → Option (Nat × Nat))
    (hl : l.Nodup) (hr : ∀ j ∈ l, j < comps.length) :
    ∃ c', (l.zipIdx k).foldlM (storeStep g comps) c = some c' ∧
      (∀ (p j i : Nat), l[p]? = some j → comps[j]? = some i → c' i = some (g, k + p)) ∧
      ∀ i, (∀ j ∈ l, comps[j]? ≠ some i) → c' i = c i := by
  induction l generalizing k c with
  | nil => exact ⟨c, rfl, by simp, by simp⟩
  | cons a l ih =>
    rw [List.nodup_cons] at hl
    have ha := hr a (by simp)
    obtain ⟨c', h1, h2, h3⟩ := ih (k + 1) (Function.update c comps[a] (some (g, k))) hl.2 (fun j hj => hr j (by simp [hj]))
    refine ⟨c', ?_, fun p j i hp hj => ?_, fun i hi => ?_⟩
    · rw [List.zipIdx_cons, List.foldlM_cons]
      unfold storeStep
      rw [List.getElem?_eq_getElem ha]
      exact h1
    · cases p with
      | zero =>
        simp only [List.getElem?_cons_zero, Option.some.injEq] at hp
        subst hp
        rw [List.getElem?_eq_getElem ha] at hj
        injection hj with hj
        rw [← hj, h3 comps[a] (fun j' hj' e => ?_), Function.update_self]
        · simp
        · have hj'l := hr j' (by simp [hj'])
          rw [List.getElem?_eq_getElem hj'l] at e
          injection e with e
          have := (hn.getElem_inj_iff).mp e
          exact hl.1 (this ▸ hj')
      | succ p =>
        rw [List.getElem?_cons_succ] at hp
        rw [h2 p j i hp hj]
        congr 2; omega
    · rw [h3 i (fun j hj => hi j (by simp [hj])), Function.update_of_ne]
      intro e
      exact hi a (by simp) (by rw [List.getElem?_eq_getElem ha, e])

/-- The coupling of all components. -/
structure ObjectsOk (find : Nat → Option (Nat × Nat)) (include_ : Nat → Bool) (n nIsland : Nat) (coupling : Nat → Option (Nat × Nat))
    (dense : Nat → List Nat) (coup : Nat → Option (Nat × Nat)) : Prop where
  found : ∀ i g o, i < n → include_ i = true → find i = some (g, o) → g < nIsland → ∃ p, coup i = some (g, p) ∧ (dense g)[p]? = some o
  other : ∀ i, (¬(i < n ∧ include_ i = true ∧ ∃ g o, find i = some (g, o) ∧ g < nIsland)) → coup i = coupling i
  unique : ∀ g p, g < nIsland → p < (dense g).length →
    ∃ i, (i < n ∧ include_ i = true ∧ coup i = some (g, p) ∧ ∃ o, find i = some (g, o)) ∧
      ∀ i', i' < n → include_ i' = true → (∃ o, find i' = some (g, o)) → coup i' = some (g, p) → i' = i
  sorted : ∀ g, g < nIsland → (dense g).Pairwise (· ≤ ·)

theorem mem_collect (find : Nat → Option (Nat × Nat)) (include_ : Nat → Bool) (n g o i : Nat) :
    (o, i) ∈ collectFor find include_ n g ↔ i < n ∧ include_ i = true ∧ find i = some (g, o) := by
  unfold collectFor
  rw [List.mem_filterMap]
  constructor
  · rintro ⟨j, hj, he⟩
    rw [List.mem_range] at hj
    split_ifs at he with hi
    cases hf : find j with
    | none => rw [hf] at he; simp at he
    | some m =>
      rw [hf] at he
      simp only [Option.bind_some] at he
      split_ifs at he with hg
      simp only [Option.some.injEq, Prod.mk.injEq] at he
      rw [← he.2]
      exact ⟨hj, hi, by rw [hf, ← hg, ← he.1]⟩
  · rintro ⟨h1, h2, h3⟩
    exact ⟨i, List.mem_range.mpr h1, by rw [if_pos h2, h3]; simp⟩

theorem collect_nodup (find : Nat → Option (Nat × Nat)) (include_ : Nat → Bool) (n g : Nat) :
    ((collectFor find include_ n g).map (·.2)).Nodup := by
  unfold collectFor
  rw [List.map_filterMap]
  apply List.Nodup.filterMap _ (List.nodup_range)
  intro a a' b hb hb'
  have key : ∀ a b, b ∈ Option.map (fun x : Nat × Nat => x.2)
      (if include_ a = true then (find a).bind fun m => if m.1 = g then some (m.2, a) else none else none) → b = a := by
    intro a b hb
    rw [Option.mem_def] at hb
    split_ifs at hb
    · cases hf : find a with
      | none => rw [hf] at hb; simp at hb
      | some m =>
        rw [hf] at hb
        simp only [Option.bind_some] at hb
        split_ifs at hb <;> simp at hb
        exact hb.symm
    · simp at hb
  rw [← key a b hb, ← key a' b hb']

theorem island_objects (criterion : Nat → Nat → Bool) (find : Nat → Option (Nat × Nat)) (include_ : Nat → Bool) (n : Nat) (nObj : Nat → Nat)
    (hr : ∀ i g o, find i = some (g, o) → o < nObj g) (coupling : Nat → Option (Nat × Nat)) (g : Nat) (dense : Nat → List Nat)
    (coup : Nat → Option (Nat × Nat)) (h : ObjectsOk find include_ n g coupling dense coup) :
    ∃ r, coupleIsland criterion find include_ n nObj (dense, coup) g = some r ∧ ObjectsOk find include_ n (g + 1) coupling r.1 r.2 := by
  set sel := collectFor find include_ n g with hsel
  have hsm := mem_collect find include_ n g
  have hnd := collect_nodup find include_ n g
  rw [← hsel] at hnd
  obtain ⟨m, e1, m1, m2, m3, m4, _⟩ := Index.dense_mapping_sorted criterion (sel.map (·.1)) (nObj g) (by
    intro o ho
    obtain ⟨⟨o', i⟩, h1, rfl⟩ := List.mem_map.mp ho
    exact hr i g o' ((hsm o' i).mp h1).2.2)
  have hlen : (sel.map (·.1)).length = sel.length := by simp
  have hmn : m.reorder.Nodup := m2.nodup_iff.mpr List.nodup_range
  obtain ⟨c', s1, s2, s3⟩ := store_fold g (sel.map (·.2)) hnd m.reorder 0 coup hmn (by
    intro j hj
    have := m2.mem_iff.mp hj
    rw [List.mem_range] at this
    simpa using this)
  refine ⟨(Function.update dense g m.indvector, c'), ?_, ?_⟩
  · unfold coupleIsland groupObjects storeCoupling
    simp only [← hsel, e1, Option.bind_eq_bind, Option.bind_some, s1]
  · have hd : ∀ g', (Function.update dense g m.indvector) g' = if g' = g then m.indvector else dense g' := fun g' => Function.update_apply _ _ _ _
    have hnot : ∀ i, (∀ o, find i ≠ some (g, o)) ∨ ¬i < n ∨ include_ i = false → c' i = coup i := by
      intro i hi
      apply s3
      intro j _ e
      have hm := List.mem_of_getElem? e
      obtain ⟨⟨o, i'⟩, h1, h2⟩ := List.mem_map.mp hm
      have h2 : i' = i := h2
      subst h2
      obtain ⟨k1, k2, k3⟩ := (hsm o i').mp h1
      rcases hi with hi | hi | hi
      · exact hi o k3
      · exact hi k1
      · rw [hi] at k2; cases k2
    have hpos : ∀ p : Nat, p < m.indvector.length → ∃ o i, (i < n ∧ include_ i = true ∧ find i = some (g, o)) ∧ m.indvector[p]? = some o ∧
        c' i = some (g, p) := by
      intro p hp
      obtain ⟨j, h1, h2, h3⟩ := m4 p (by omega)
      have hj : j < sel.length := by simpa using h3
      have hmem := (hsm sel[j].1 sel[j].2).mp (List.getElem_mem hj)
      refine ⟨sel[j].1, sel[j].2, hmem, ?_, ?_⟩
      · rw [h2, List.getElem?_map, List.getElem?_eq_getElem hj]; rfl
      · have := s2 p j sel[j].2 h1 (by rw [List.getElem?_map, List.getElem?_eq_getElem hj]; rfl)
        simpa using this
    have hcur : ∀ i o, i < n → include_ i = true → find i = some (g, o) → ∃ p, c' i = some (g, p) ∧ m.indvector[p]? = some o := by
      intro i o h1 h2 h3
      have hin := (hsm o i).mpr ⟨h1, h2, h3⟩
      obtain ⟨j, hj, ej⟩ := List.mem_iff_getElem.mp hin
      have hjr : j ∈ m.reorder := m2.mem_iff.mpr (List.mem_range.mpr (by simpa using hj))
      obtain ⟨p, hp, ep⟩ := List.mem_iff_getElem.mp hjr
      have hep : m.reorder[p]? = some j := by rw [List.getElem?_eq_getElem hp, ep]
      refine ⟨p, ?_, ?_⟩
      · have := s2 p j i hep (by rw [List.getElem?_map, List.getElem?_eq_getElem hj, ej]; rfl)
        simpa using this
      · have hpl : p < sel.length := by
          have := m2.length_eq
          simp at this
          omega
        obtain ⟨j', h4, h5, _⟩ := m4 p (by simpa using hpl)
        rw [hep] at h4
        injection h4 with h4
        rw [h5, ← h4, List.getElem?_map, List.getElem?_eq_getElem hj, ej]; rfl
    refine ⟨fun i g' o h1 h2 h3 h4 => ?_, fun i hi => ?_, fun g' p hg hp => ?_, fun g' hg => ?_⟩
    · show ∃ p, c' i = some (g', p) ∧ _
      by_cases e : g' = g
      · subst e
        obtain ⟨p, h5, h6⟩ := hcur i o h1 h2 h3
        exact ⟨p, h5, by simp only; rw [hd, if_pos rfl]; exact h6⟩
      · obtain ⟨p, h5, h6⟩ := h.found i g' o h1 h2 h3 (by omega)
        refine ⟨p, ?_, by simp only; rw [hd, if_neg e]; exact h6⟩
        rw [hnot i (Or.inl (fun o' e' => ?_)), h5]
        rw [h3] at e'
        simp only [Option.some.injEq, Prod.mk.injEq] at e'
        exact e e'.1
    · show c' i = coupling i
      have : c' i = coup i := by
        apply hnot
        by_contra hc
        push Not at hc
        obtain ⟨⟨o, ho⟩, h1, h2⟩ := hc
        exact hi ⟨h1, by simpa using h2, g, o, ho, by omega⟩
      rw [this]
      apply h.other
      rintro ⟨h1, h2, g', o, h3, h4⟩
      exact hi ⟨h1, h2, g', o, h3, by omega⟩
    · show ∃ i, (i < n ∧ include_ i = true ∧ c' i = some (g', p) ∧ _) ∧ _
      have hp : p < ((Function.update dense g m.indvector) g').length := hp
      rw [hd] at hp
      by_cases e : g' = g
      · subst e
        rw [if_pos rfl] at hp
        obtain ⟨o, i, ⟨h1, h2, h3⟩, h4, h5⟩ := hpos p hp
        refine ⟨i, ⟨h1, h2, h5, o, h3⟩, fun i' k1 k2 ⟨o', k3⟩ k4 => ?_⟩
        have k4 : c' i' = some (g', p) := k4
        have hin := (hsm o' i').mpr ⟨k1, k2, k3⟩
        have hin' := (hsm o i).mpr ⟨h1, h2, h3⟩
        obtain ⟨j, hj, ej⟩ := List.mem_iff_getElem.mp hin
        obtain ⟨j', hj', ej'⟩ := List.mem_iff_getElem.mp hin'
        have hjr : j ∈ m.reorder := m2.mem_iff.mpr (List.mem_range.mpr (by simpa using hj))
        have hjr' : j' ∈ m.reorder := m2.mem_iff.mpr (List.mem_range.mpr (by simpa using hj'))
        obtain ⟨q, hq, eq⟩ := List.mem_iff_getElem.mp hjr
        obtain ⟨q', hq', eq'⟩ := List.mem_iff_getElem.mp hjr'
        have a1 := s2 q j i' (by rw [List.getElem?_eq_getElem hq, eq]) (by rw [List.getElem?_map, List.getElem?_eq_getElem hj, ej]; rfl)
        have a2 := s2 q' j' i (by rw [List.getElem?_eq_getElem hq', eq']) (by rw [List.getElem?_map, List.getElem?_eq_getElem hj', ej']; rfl)
        rw [k4] at a1
        rw [h5] at a2
        simp only [Option.some.injEq, Prod.mk.injEq, true_and] at a1 a2
        have hqq : q = q' := by omega
        subst hqq
        rw [eq] at eq'
        subst eq'
        rw [ej] at ej'
        injection ej'
      · rw [if_neg e] at hp
        obtain ⟨i, ⟨h1, h2, h3, o, h4⟩, h5⟩ := h.unique g' p (by omega) hp
        have hne : ∀ i o, find i = some (g', o) → c' i = coup i := by
          intro i o hf
          apply hnot
          left
          intro o' e'
          rw [hf] at e'
          simp only [Option.some.injEq, Prod.mk.injEq] at e'
          exact e e'.1
        refine ⟨i, ⟨h1, h2, by rw [hne i o h4]; exact h3, o, h4⟩, fun i' k1 k2 ⟨o', k3⟩ k4 => ?_⟩
        have k4 : c' i' = some (g', p) := k4
        rw [hne i' o' k3] at k4
        exact h5 i' k1 k2 ⟨o', k3⟩ k4
    · show ((Function.update dense g m.indvector) g').Pairwise _
      rw [hd]
      split_ifs with e
      · exact m1
      · exact h.sorted g' (by omega)

theorem objects_ok (criterion : Nat → Nat → Bool) (find : Nat → Option (Nat × Nat)) (include_ : Nat → Bool) (n nIsland : Nat) (nObj : Nat → Nat)
    (hr : ∀ i g o, find i = some (g, o) → o < nObj g) (coupling : Nat → Option (Nat × Nat)) :
    ∃ r, coupleObjects criterion find include_ n nIsland nObj coupling = some r ∧ ObjectsOk find include_ n nIsland coupling r.1 r.2 := by
  unfold coupleObjects
  induction nIsland with
  | zero =>
    refine ⟨(fun _ => [], coupling), rfl, ?_⟩
    exact ⟨fun i g o _ _ _ h => absurd h (Nat.not_lt_zero _), fun i _ => rfl, fun g p h => absurd h (Nat.not_lt_zero _),
      fun g h => absurd h (Nat.not_lt_zero _)⟩
  | succ k ih =>
    obtain ⟨r, h1, h2⟩ := ih
    obtain ⟨r', h3, h4⟩ := island_objects criterion find include_ n nObj hr coupling k r.1 r.2 h2
    refine ⟨r', ?_, h4⟩
    rw [List.range_succ, List.foldlM_append, h1]
    simp only [List.foldlM_cons, List.foldlM_nil, Option.bind_eq_bind, Option.bind_some]
    rw [h3]
    rfl

end PGM.Topology
