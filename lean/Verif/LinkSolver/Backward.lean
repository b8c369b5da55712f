import Verif.LinkSolver.Forward
import Mathlib.Data.Int.Cast.Lemmas

/-!
# Link solver: the backward substitution
-/

namespace PGM.LinkSolver

variable {K : Type} [Field K]

theorem addTo_other (M : Coo) (v : Int) (r c r' c' : Nat) (h : r' ≠ r ∨ c' ≠ c) : M.addTo v r c r' c' = M r' c' := by
  unfold Coo.addTo
  cases M r c with
  | some w =>
    simp only
    rw [Function.update_apply]
    by_cases h1 : r' = r
    · subst h1
      rw [if_pos rfl, Function.update_of_ne (by tauto)]
    · rw [if_neg h1]
  | none =>
    simp only
    split_ifs
    · rfl
    · unfold Coo.set
      rw [Function.update_apply]
      split_ifs with h1
      · subst h1
        rw [Function.update_of_ne (by tauto)]
      · rfl

theorem addTo_same (M : Coo) (v : Int) (r c : Nat) : (M.addTo v r c r c).getD 0 = (M r c).getD 0 + v := by
  unfold Coo.addTo
  cases hM : M r c with
  | some w =>
    simp only [Function.update_self]
    split_ifs with h
    · simp [h]
    · simp
  | none =>
    simp only
    split_ifs with h
    · simp [hM, h]
    · simp [Coo.set]

theorem addTo_cancel (M : Coo) (v : Int) (r c : Nat) (h : M r c = some v) : M.addTo (-v) r c r c = none := by
  unfold Coo.addTo
  rw [h]
  simp

theorem freeFold (r pr : Nat) (hr : r ≠ pr) (mul : Int) (L : List Nat) (hL : L.Nodup) (M : Coo) :
    (∀ r' c, r' ≠ r ∨ c ∉ L → L.foldl (freeStep r pr mul) M r' c = M r' c) ∧
    ∀ c, c ∈ L → (L.foldl (freeStep r pr mul) M r c).getD 0 = (M r c).getD 0 - mul * (M pr c).getD 0 := by
  induction L generalizing M with
  | nil => simp
  | cons a L ih =>
    rw [List.nodup_cons] at hL
    obtain ⟨h1, h2⟩ := ih hL.2 (freeStep r pr mul M a)
    have hother : ∀ r' c, r' ≠ r ∨ c ≠ a → freeStep r pr mul M a r' c = M r' c := by
      intro r' c h
      unfold freeStep
      cases M pr a with
      | some p => exact addTo_other M _ r a r' c h
      | none => rfl
    have hsame : (freeStep r pr mul M a r a).getD 0 = (M r a).getD 0 - mul * (M pr a).getD 0 := by
      unfold freeStep
      cases hp : M pr a with
      | some p =>
        simp only [addTo_same, Option.getD_some]
        ring
      | none => simp
    rw [List.foldl_cons]
    refine ⟨fun r' c h => ?_, fun c hc => ?_⟩
    · rw [h1 r' c (by rw [List.mem_cons] at h; tauto)]
      exact hother r' c (by rw [List.mem_cons] at h; tauto)
    · rcases List.mem_cons.mp hc with rfl | hc
      · rw [h1 r c (Or.inr hL.1)]; exact hsame
      · have hca : c ≠ a := fun e => hL.1 (e ▸ hc)
        rw [h2 c hc, hother r c (Or.inr hca), hother pr c (Or.inr hca)]

/-- What is known of the lists of pivot edges and free edges. -/
structure Lists (piv free : List Nat) (m : Nat) : Prop where
  disjoint : ∀ j, j ∈ piv → j ∉ free
  cover : ∀ j, j < m → j ∈ piv ∨ j ∈ free
  pivLt : ∀ j, j ∈ piv → j < m
  freeLt : ∀ j, j ∈ free → j < m
  pivSorted : piv.Pairwise (· < ·)
  freeSorted : free.Pairwise (· < ·)

theorem sorted_lt {l : List Nat} (h : l.Pairwise (· < ·)) {a b x y : Nat} (ha : l[a]? = some x) (hb : l[b]? = some y) : a < b ↔ x < y := by
  have hal : a < l.length := by by_contra hn; rw [List.getElem?_eq_none (by omega)] at ha; cases ha
  have hbl : b < l.length := by by_contra hn; rw [List.getElem?_eq_none (by omega)] at hb; cases hb
  rw [List.getElem?_eq_getElem hal] at ha
  rw [List.getElem?_eq_getElem hbl] at hb
  injection ha with ha
  injection hb with hb
  rw [List.pairwise_iff_getElem] at h
  rcases Nat.lt_trichotomy a b with e | e | e
  · have := h a b hal hbl e
    rw [ha, hb] at this
    simp [e, this]
  · subst e
    rw [ha] at hb
    simp [hb]
  · have := h b a hbl hal e
    rw [ha, hb] at this
    constructor <;> intro <;> omega

/-- What holds during the substitution; the pivot columns in `P` are done. -/
structure BInv (piv : List Nat) (m : Nat) (M0 : Coo) (rhs0 : Nat → K) (P : Nat → Prop) (s : Coo × (Nat → K)) : Prop where
  diag : ∀ r p, piv[r]? = some p → s.1 r p = some 1
  right : ∀ r j, s.1 r j ≠ none → ∃ p, piv[r]? = some p ∧ p ≤ j ∧ j < m
  done : ∀ r j, j ∈ piv → P j → s.1 r j ≠ none → piv[r]? = some j
  solves : ∀ x, RowsHold m piv.length s.1 s.2 x ↔ RowsHold m piv.length M0 rhs0 x

theorem rowStep_ok {piv free : List Nat} {m : Nat} (hl : Lists piv free m) {M0 : Coo} {rhs0 : Nat → K} {P : Nat → Prop} {s : Coo × (Nat → K)}
    (h : BInv piv m M0 rhs0 P s) {j pr r : Nat} (hj : piv[pr]? = some j) (hP : ∀ c, c ∈ piv → j < c → P c) (hr : r < pr) (hrj : s.1 r j ≠ none) :
    ∃ s', rowStep free j pr s r = some s' ∧ BInv piv m M0 rhs0 P s' ∧ s'.1 r j = none ∧ (∀ r', r' ≠ r → s'.1 r' j = s.1 r' j) ∧
      ∀ r' c, c ∈ piv → c ≠ j → s'.1 r' c = s.1 r' c := by
  obtain ⟨mul, hmul⟩ := Option.ne_none_iff_exists'.mp hrj
  have hjm : j ∈ piv := List.mem_of_getElem? hj
  unfold rowStep
  rw [hmul]
  refine ⟨_, rfl, ?_⟩
  have hnod : (free.filter fun c => decide (j < c)).Nodup := (hl.freeSorted.imp (fun h => Nat.ne_of_lt h)).filter _
  have hmem : ∀ c, c ∈ (free.filter fun c => decide (j < c)) ↔ c ∈ free ∧ j < c := by
    intro c
    rw [List.mem_filter]
    simp
  obtain ⟨f1, f2⟩ := freeFold r pr (by omega) mul _ hnod (s.1.addTo (-mul) r j)
  generalize (free.filter fun c => decide (j < c)).foldl (freeStep r pr mul) (s.1.addTo (-mul) r j) = M' at f1 f2 ⊢
  have hrow : ∀ r' c, r' ≠ r → M' r' c = s.1 r' c := by
    intro r' c hne
    rw [f1 r' c (Or.inl hne), addTo_other _ _ _ _ _ _ (Or.inl hne)]
  have hcolj : M' r j = none := by
    rw [f1 r j (Or.inr (fun hc => by have := ((hmem j).mp hc).2; omega))]
    exact addTo_cancel _ _ _ _ hmul
  have hpivc : ∀ r' c, c ∈ piv → c ≠ j → M' r' c = s.1 r' c := by
    intro r' c hc hne
    rw [f1 r' c (Or.inr (fun hc' => hl.disjoint c hc ((hmem c).mp hc').1)), addTo_other _ _ _ _ _ _ (Or.inr hne)]
  have hval : ∀ c, c < m → (M' r c).getD 0 = (s.1 r c).getD 0 - mul * (s.1 pr c).getD 0 := by
    intro c hc
    by_cases hcj : c = j
    · subst hcj
      rw [hcolj, hmul, h.diag pr c hj]; simp
    · by_cases hcL : c ∈ free ∧ j < c
      · rw [f2 c ((hmem c).mpr hcL), addTo_other _ _ _ _ _ _ (Or.inr hcj), addTo_other _ _ _ _ _ _ (Or.inr hcj)]
      · rw [f1 r c (Or.inr (fun e => hcL ((hmem c).mp e))), addTo_other _ _ _ _ _ _ (Or.inr hcj)]
        have : s.1 pr c = none := by
          by_contra hn
          obtain ⟨p, hp, hpc, _⟩ := h.right pr c hn
          rw [hj] at hp
          injection hp with hp
          subst hp
          rcases hl.cover c hc with hcp | hcf
          · have := h.done pr c hcp (hP c hcp (by omega)) hn
            rw [hj] at this
            injection this with this
            exact hcj this.symm
          · exact hcL ⟨hcf, by omega⟩
        rw [this]; simp
  have hrl : r < piv.length := by
    have : pr < piv.length := by by_contra hn; rw [List.getElem?_eq_none (by omega)] at hj; cases hj
    omega
  have hprl : pr < piv.length := by by_contra hn; rw [List.getElem?_eq_none (by omega)] at hj; cases hj
  have hrp : piv[r]? = some piv[r] := List.getElem?_eq_getElem hrl
  refine ⟨⟨fun r' p hp => ?_, fun r' c hc => ?_, fun r' c hc hcP hn => ?_, fun x => ?_⟩, hcolj, fun r' hne => hrow r' j hne, hpivc⟩
  · show M' r' p = some 1
    by_cases hne : r' = r
    · subst hne
      have : p < j := (sorted_lt hl.pivSorted hp hj).mp hr
      rw [hpivc _ _ (List.mem_of_getElem? hp) (by omega)]
      exact h.diag _ _ hp
    · rw [hrow _ _ hne]; exact h.diag _ _ hp
  · replace hc : M' r' c ≠ none := hc
    by_cases hne : r' = r
    · subst hne
      by_cases hcL : c ∈ free ∧ j < c
      · exact ⟨piv[r'], hrp, by have := (sorted_lt hl.pivSorted hrp hj).mp hr; omega, hl.freeLt c hcL.1⟩
      · have hcj : c ≠ j := fun e => hc (e ▸ hcolj)
        rw [f1 r' c (Or.inr (fun e => hcL ((hmem c).mp e))), addTo_other _ _ _ _ _ _ (Or.inr hcj)] at hc
        exact h.right _ _ hc
    · rw [hrow _ _ hne] at hc
      exact h.right _ _ hc
  · replace hn : M' r' c ≠ none := hn
    by_cases hcj : c = j
    · subst hcj
      by_cases hne : r' = r
      · subst hne; exact absurd hcolj hn
      · rw [hrow _ _ hne] at hn
        exact h.done _ _ hc hcP hn
    · rw [hpivc _ _ hc hcj] at hn
      exact h.done _ _ hc hcP hn
  · rw [← h.solves]
    have hrhs : ∀ r', Function.update s.2 r (s.2 r - (mul : K) * s.2 pr) r' = if r' = r then s.2 r - (mul : K) * s.2 pr else s.2 r' :=
      fun r' => Function.update_apply _ _ _ _
    have hsum : ∑ c ∈ Finset.range m, (((M' r c).getD 0 : Int) : K) * x c =
        ∑ c ∈ Finset.range m, (((s.1 r c).getD 0 : Int) : K) * x c - (mul : K) * ∑ c ∈ Finset.range m, (((s.1 pr c).getD 0 : Int) : K) * x c := by
      rw [Finset.mul_sum, ← Finset.sum_sub_distrib]
      refine Finset.sum_congr rfl fun c hc => ?_
      rw [hval c (Finset.mem_range.mp hc)]
      push_cast
      ring
    have hsum' : ∀ r', r' ≠ r → ∑ c ∈ Finset.range m, (((M' r' c).getD 0 : Int) : K) * x c = ∑ c ∈ Finset.range m, (((s.1 r' c).getD 0 : Int) : K) * x c := by
      intro r' hne
      refine Finset.sum_congr rfl fun c _ => ?_
      rw [hrow _ _ hne]
    constructor
    · intro hx
      have hx : ∀ r', r' < piv.length → ∑ c ∈ Finset.range m, (((M' r' c).getD 0 : Int) : K) * x c = Function.update s.2 r (s.2 r - (mul : K) * s.2 pr) r' := hx
      have hpr := hx pr hprl
      rw [hsum' pr (by omega), hrhs, if_neg (by omega)] at hpr
      intro r' hr'
      by_cases hne : r' = r
      · have := hx r hrl
        rw [hsum, hrhs, if_pos rfl] at this
        rw [hne]
        linear_combination this + (mul : K) * hpr
      · have := hx r' hr'
        rw [hsum' r' hne, hrhs, if_neg hne] at this
        exact this
    · intro hx r' hr'
      show ∑ c ∈ Finset.range m, (((M' r' c).getD 0 : Int) : K) * x c = Function.update s.2 r (s.2 r - (mul : K) * s.2 pr) r'
      rw [hrhs]
      by_cases hne : r' = r
      · rw [if_pos hne, hne, hsum, hx r hrl, hx pr hprl]
      · rw [if_neg hne, hsum' r' hne]
        exact hx r' hr'

theorem rows_ok {piv free : List Nat} {m : Nat} (hl : Lists piv free m) {M0 : Coo} {rhs0 : Nat → K} {P : Nat → Prop} {j pr : Nat} (hj : piv[pr]? = some j)
    (hP : ∀ c, c ∈ piv → j < c → P c) (L : List Nat) (hL : L.Nodup) {s : Coo × (Nat → K)} (h : BInv piv m M0 rhs0 P s)
    (hrows : ∀ r, r ∈ L → r < pr ∧ s.1 r j ≠ none) :
    ∃ s', L.foldlM (rowStep free j pr) s = some s' ∧ BInv piv m M0 rhs0 P s' ∧ (∀ r, s'.1 r j ≠ none → s.1 r j ≠ none ∧ r ∉ L) ∧
      ∀ r' c, c ∈ piv → c ≠ j → s'.1 r' c = s.1 r' c := by
  induction L generalizing s with
  | nil => exact ⟨s, rfl, h, fun r hr => ⟨hr, by simp⟩, fun _ _ _ _ => rfl⟩
  | cons r L ih =>
    rw [List.nodup_cons] at hL
    obtain ⟨hr1, hr2⟩ := hrows r (by simp)
    obtain ⟨s1, e1, h1, h2, h3, h4⟩ := rowStep_ok hl h hj hP hr1 hr2
    obtain ⟨s2, e2, h5, h6, h7⟩ := ih hL.2 h1 (fun r' hr' => by
      have hne : r' ≠ r := fun e => hL.1 (e ▸ hr')
      rw [h3 r' hne]
      exact hrows r' (by simp [hr']))
    refine ⟨s2, by rw [List.foldlM_cons, e1]; exact e2, h5, fun r' hr' => ?_, fun r' c hc hne => ?_⟩
    · obtain ⟨a, b⟩ := h6 r' hr'
      have hne : r' ≠ r := fun e => a (e ▸ h2)
      rw [h3 r' hne] at a
      exact ⟨a, by simp [hne, b]⟩
    · rw [h7 r' c hc hne, h4 r' c hc hne]

theorem lists_of_finv {edges : Nat → Nat × Nat} {n m : Nat} {loads : Nat → K} {s : Fwd K} {cur : Nat → Nat} (h : FInv edges n m loads m s cur) :
    Lists s.piv s.free m := by
  refine ⟨fun j hj hj' => ((h.pivot j).mp hj).2 ((h.free j).mp hj').2, fun j hj => ?_, fun j hj => ((h.pivot j).mp hj).1, fun j hj => ((h.free j).mp hj).1,
    h.pivSorted, h.freeSorted⟩
  by_cases hr : Redundant edges j
  · exact Or.inr ((h.free j).mpr ⟨hj, hr⟩)
  · exact Or.inl ((h.pivot j).mpr ⟨hj, hr⟩)

theorem backward_ok {edges : Nat → Nat × Nat} {n m : Nat} {loads : Nat → K} {s : Fwd K} {cur : Nat → Nat} (h : FInv edges n m loads m s cur) :
    ∃ M rhs, backward s = some (M, rhs) ∧ BInv s.piv m s.mat s.rhs (fun _ => True) (M, rhs) := by
  have hl := lists_of_finv h
  -- the pivots that remain to be done are the first `k`
  have main : ∀ k, k ≤ s.piv.length → ∀ b : Coo × (Nat → K), BInv s.piv m s.mat s.rhs (fun c => ∃ r, k ≤ r ∧ s.piv[r]? = some c) b →
      (∀ r c, (∃ q, q < k ∧ s.piv[q]? = some c) → b.1 r c = s.mat r c) →
      ∃ b', ((s.piv.take k).drop 1).reverse.foldlM (pivotStep s.hist s.free) b = some b' ∧ BInv s.piv m s.mat s.rhs (fun c => ∃ r, 1 ≤ r ∧ s.piv[r]? = some c) b' := by
    intro k
    induction k with
    | zero =>
      intro _ b hb _
      refine ⟨b, rfl, hb.diag, hb.right, fun r j hj hP hn => hb.done r j hj ?_ hn, hb.solves⟩
      obtain ⟨q, _, hq⟩ := hP
      exact ⟨q, by omega, hq⟩
    | succ k ih =>
      intro hk b hb hcol
      by_cases hk0 : k = 0
      · subst hk0
        refine ⟨b, ?_, hb⟩
        have : ((s.piv.take (0 + 1)).drop 1) = [] := by
          apply List.drop_eq_nil_of_le
          simp
        rw [this]; rfl
      · obtain ⟨j, hj⟩ : ∃ j, s.piv[k]? = some j := ⟨_, List.getElem?_eq_getElem (by omega)⟩
        have htake : s.piv.take (k + 1) = s.piv.take k ++ [j] := by
          rw [List.take_add_one, hj]; rfl
        rw [htake, List.drop_append_of_le_length (by simp; omega), List.reverse_append]
        simp only [List.reverse_singleton, List.singleton_append, List.foldlM_cons]
        -- the rows of this pivot
        have hjm : j ∈ s.piv := List.mem_of_getElem? hj
        have hkj : k ∈ s.hist j := (h.hist j k).mpr (by rw [h.diag k j hj]; simp)
        have hle : ∀ r, r ∈ s.hist j → r ≤ k := by
          intro r hr
          obtain ⟨p, hp, hpj, _⟩ := h.right r j ((h.hist j r).mp hr)
          by_contra hn
          have := (sorted_lt hl.pivSorted hj hp).mp (by omega)
          omega
        have hne : s.hist j ≠ [] := fun e => by rw [e] at hkj; cases hkj
        obtain ⟨q, hq⟩ : ∃ q, q = (s.hist j).getLast hne := ⟨_, rfl⟩
        have hsplit : s.hist j = (s.hist j).dropLast ++ [q] := by rw [hq]; exact (List.dropLast_append_getLast hne).symm
        have hqk : q = k := by
          have hqm : q ∈ s.hist j := by rw [hq]; exact List.getLast_mem hne
          have := hle q hqm
          rw [hsplit, List.mem_append, List.mem_singleton] at hkj
          rcases hkj with e | e
          · have hs := h.histSorted j
            rw [hsplit, List.pairwise_append] at hs
            have := hs.2.2 k e q (by simp)
            omega
          · exact e.symm
        rw [hqk] at hsplit
        have hlast : (s.hist j).getLast? = some k := by rw [hsplit]; simp
        have hrev : (s.hist j).reverse.drop 1 = (s.hist j).dropLast.reverse := by
          rw [hsplit]; simp
        have hsort := h.histSorted j
        rw [hsplit, List.pairwise_append] at hsort
        obtain ⟨b1, e1, g1, g2, g3⟩ := rows_ok (free := s.free) hl (P := fun c => ∃ r, k + 1 ≤ r ∧ s.piv[r]? = some c) hj (fun c hc hjc => by
          obtain ⟨r, hr⟩ := List.mem_iff_getElem?.mp hc
          exact ⟨r, (sorted_lt hl.pivSorted hj hr).mpr hjc, hr⟩) (s.hist j).dropLast.reverse
          (List.nodup_reverse.mpr (hsort.1.imp (fun h => Nat.ne_of_lt h))) hb (fun r hr => by
            rw [List.mem_reverse] at hr
            refine ⟨hsort.2.2 r hr k (by simp), ?_⟩
            rw [hcol r j ⟨k, by omega, hj⟩, ← h.hist, hsplit]
            exact List.mem_append_left _ hr)
        have hstep : pivotStep s.hist s.free b j = some b1 := by
          unfold pivotStep
          rw [hlast]
          simp only
          rw [hrev]
          exact e1
        rw [hstep]
        simp only [Option.bind_eq_bind, Option.bind_some]
        refine ih (by omega) b1 ⟨g1.diag, g1.right, fun r c hc hP hn => ?_, g1.solves⟩ (fun r c hc => ?_)
        · obtain ⟨q', hq1, hq2⟩ := hP
          by_cases hqk : q' = k
          · subst hqk
            rw [hj] at hq2
            injection hq2 with hq2
            subst hq2
            obtain ⟨a1, a2⟩ := g2 r hn
            have hm : r ∈ s.hist j := by
              rw [h.hist, ← hcol r j ⟨q', by omega, hj⟩]; exact a1
            rw [hsplit, List.mem_append, List.mem_singleton] at hm
            rcases hm with e | e
            · exact absurd (List.mem_reverse.mpr e) a2
            · rw [e]; exact hj
          · exact g1.done r c hc ⟨q', by omega, hq2⟩ hn
        · obtain ⟨q', hq1, hq2⟩ := hc
          have : c ≠ j := by
            rintro rfl
            have := (sorted_lt hl.pivSorted hq2 hj).mp hq1
            omega
          rw [g3 r c (List.mem_of_getElem? hq2) this]
          exact hcol r c ⟨q', by omega, hq2⟩
  obtain ⟨b', e, hb⟩ := main s.piv.length (le_refl _) (s.mat, s.rhs)
    ⟨h.diag, h.right, fun r j hj hP hn => by
      obtain ⟨q, hq, hq'⟩ := hP
      rw [List.getElem?_eq_none (by omega)] at hq'
      exact absurd hq' (by simp), fun x => Iff.rfl⟩ (fun _ _ _ => rfl)
  rw [List.take_length] at e
  refine ⟨b'.1, b'.2, e, hb.diag, hb.right, fun r j hj _ hn => ?_, hb.solves⟩
  obtain ⟨q, hq⟩ := List.mem_iff_getElem?.mp hj
  by_cases hq0 : q = 0
  · subst hq0
    obtain ⟨p, hp, hpj, _⟩ := hb.right r j hn
    by_cases hr : r = 0
    · rw [hr]; exact hq
    · have := (sorted_lt hl.pivSorted hq hp).mp (by omega)
      omega
  · exact hb.done r j hj ⟨q, by omega, hq⟩ hn

end PGM.LinkSolver
