import Verif.Index.Lemmas3

/-!
# Properties C01, C02, C03: grouping of objects

Specification vocabulary (independent of the algorithms):

* `members idx b` – the positions assigned to group `b`, in increasing order;
* `slice l s e` – the elements of `l` at the positions `s, ..., e-1`.
-/

namespace PGM.Index

/-- Positions of the objects assigned to group `b`, in their original order. -/
def members (idx : List Nat) (b : Nat) : List Nat :=
  (List.range idx.length).filter (fun i => idx[i]? == some b)

/-- The half-open slice `[s, e)` of a list. -/
def slice {α : Type _} (l : List α) (s e : Nat) : List α := (l.drop s).take (e - s)

/-- C01. For every assignment of objects to `nB` groups, `build_sparse_mapping` succeeds; its `indptr` has
`nB + 1` entries, starts at 0 and ends at the number of objects; the slice of `reorder` belonging to group `b`
is exactly the list of objects of group `b` in original order; and every object occurs exactly once. -/
theorem sparse_mapping_groups (idx : List Nat) (nB : Nat) (h : ∀ b ∈ idx, b < nB) :
    ∃ m, buildSparseMapping idx nB = some m ∧
      m.indptr.length = nB + 1 ∧ m.indptr[0]? = some 0 ∧ m.indptr[nB]? = some idx.length ∧
      m.reorder.Perm (List.range idx.length) ∧
      ∀ b, b < nB → ∃ s e, m.indptr[b]? = some s ∧ m.indptr[b + 1]? = some e ∧ s ≤ e ∧
        slice m.reorder s e = members idx b := by
  refine ⟨_, buildSparseMapping_eq idx nB h, by simp, by simp [psum], ?_, grouped_perm idx nB h, ?_⟩
  · simp [psum_count_total idx nB h]
  · intro b hb
    have hb1 : b < nB + 1 := by omega
    have hb2 : b + 1 < nB + 1 := by omega
    refine ⟨psum (fun b => idx.count b) b, psum (fun b => idx.count b) (b + 1), by simp [hb1], by simp [hb2],
      psum_mono _ (by omega), ?_⟩
    have hs : psum (fun b => idx.count b) (b + 1) = psum (fun b => idx.count b) b + idx.count b := rfl
    have hlen : (grouped idx nB).length = psum (fun b => idx.count b) nB := by
      rw [(grouped_perm idx nB h).length_eq, psum_count_total idx nB h]; simp
    have hle : psum (fun b => idx.count b) (b + 1) ≤ psum (fun b => idx.count b) nB := psum_mono _ (by omega)
    apply List.ext_getElem?
    intro j
    unfold slice members
    rw [hs, Nat.add_sub_cancel_left, List.getElem?_take]
    by_cases hj : j < idx.count b
    · rw [if_pos hj, List.getElem?_drop]
      have := flatMap_blocks_getElem? (fun b => (List.range idx.length).filter (fun i => idx[i]? == some b)) nB b j
        hb (by rw [sel_entries_length]; exact hj)
      rw [psum_sel] at this
      exact this
    · rw [if_neg hj, eq_comm]
      apply List.getElem?_eq_none
      rw [sel_entries_length]; omega

/-- C01, error side: an assignment to a group that does not exist is an out-of-range access. -/
theorem sparse_mapping_out_of_range (idx : List Nat) (nB : Nat) (h : ∃ b ∈ idx, nB ≤ b) :
    buildSparseMapping idx nB = none := by
  unfold buildSparseMapping countPass
  rw [replicate_eq_tab, countPass_aux_none nB idx _ h]
  rfl

/-- Non-vacuity of `sparse_mapping_groups`: the example of the source comment (index_mapping.hpp line 47). -/
example : (∀ b ∈ [3, 5, 2, 1, 1, 2], b < 7) ∧
    buildSparseMapping [3, 5, 2, 1, 1, 2] 7 = some ⟨[0, 0, 2, 4, 5, 5, 6, 6], [3, 4, 2, 5, 0, 1]⟩ := by
  decide

/-- C02. For every size heuristic, `build_dense_mapping` succeeds and returns the groups in increasing order
together with a permutation of the objects that explains them (entry `k` of `indvector` is the group of object
`reorder[k]`), with objects of one group in their original order. -/
theorem dense_mapping_sorted (criterion : Nat → Nat → Bool) (idx : List Nat) (nB : Nat)
    (h : ∀ b ∈ idx, b < nB) :
    ∃ m, buildDenseMapping criterion idx nB = some m ∧
      m.indvector.Pairwise (· ≤ ·) ∧
      m.reorder.Perm (List.range idx.length) ∧
      m.indvector.length = idx.length ∧
      (∀ k, k < idx.length → ∃ i, m.reorder[k]? = some i ∧ m.indvector[k]? = idx[i]? ∧ i < idx.length) ∧
      (∀ k l i j g : Nat, k < l → m.reorder[k]? = some i → m.reorder[l]? = some j →
        m.indvector[k]? = some g → m.indvector[l]? = some g → i < j) := by
  have heq : buildDenseMapping criterion idx nB =
      some ⟨decoded (fun b => idx.count b) nB, grouped idx nB⟩ := by
    unfold buildDenseMapping
    split
    · exact denseCounting_eq idx nB h
    · rw [denseComparison_eq idx nB h]
  have hfst := groupedPairs_fst idx nB
  have hsnd := groupedPairs_snd idx nB
  have hmap := groupedPairs_eq_map idx nB
  have hlen : (grouped idx nB).length = idx.length := by
    rw [(grouped_perm idx nB h).length_eq]; simp
  have hplen : (groupedPairs idx nB).length = idx.length := by rw [hmap]; simpa using hlen
  refine ⟨_, heq, decoded_sorted _ _, grouped_perm idx nB h, ?_, ?_, ?_⟩
  · simp only; rw [← hfst]; simpa using hplen
  · intro k hk
    simp only
    have hk' : k < (grouped idx nB).length := by omega
    have hi : (grouped idx nB)[k] < idx.length :=
      List.mem_range.mp ((grouped_perm idx nB h).mem_iff.mp (List.getElem_mem hk'))
    refine ⟨(grouped idx nB)[k], List.getElem?_eq_getElem hk', ?_, hi⟩
    rw [← hfst, hmap, List.map_map, List.getElem?_map, List.getElem?_eq_getElem hk']
    simp [List.getD_eq_getElem?_getD, hi]
  · intro k l i j g hkl h1 h2 h3 h4
    simp only at *
    have hpk : (groupedPairs idx nB)[k]? = some (g, i) := by
      rw [← hfst] at h3; rw [← hsnd] at h1
      rw [List.getElem?_map] at h1 h3
      cases hq : (groupedPairs idx nB)[k]? with
      | none => simp [hq] at h1
      | some q => simp [hq] at h1 h3; rw [← h1, ← h3]
    have hpl : (groupedPairs idx nB)[l]? = some (g, j) := by
      rw [← hfst] at h4; rw [← hsnd] at h2
      rw [List.getElem?_map] at h2 h4
      cases hq : (groupedPairs idx nB)[l]? with
      | none => simp [hq] at h2
      | some q => simp [hq] at h2 h4; rw [← h2, ← h4]
    obtain ⟨hk, hk'⟩ := List.getElem?_eq_some_iff.mp hpk
    obtain ⟨hl, hl'⟩ := List.getElem?_eq_some_iff.mp hpl
    have hle := (List.pairwise_iff_getElem.mp (groupedPairs_sorted idx nB)) k l hk hl hkl
    rw [hk', hl'] at hle
    have hnd : (grouped idx nB).Nodup := (grouped_perm idx nB h).nodup_iff.mpr List.nodup_range
    have hij : i ≠ j := by
      intro hij
      subst hij
      obtain ⟨a1, a2⟩ := List.getElem?_eq_some_iff.mp h1
      obtain ⟨b1, b2⟩ := List.getElem?_eq_some_iff.mp h2
      have := (List.pairwise_iff_getElem.mp hnd) k l a1 b1 hkl
      exact this (a2.trans b2.symm)
    simp [lexLe] at hle
    omega

/-- C02. Whatever the heuristic says, the result is the same. -/
theorem dense_mapping_heuristic_irrelevant (c₁ c₂ : Nat → Nat → Bool) (idx : List Nat) (nB : Nat)
    (h : ∀ b ∈ idx, b < nB) : buildDenseMapping c₁ idx nB = buildDenseMapping c₂ idx nB := by
  have key : ∀ c, buildDenseMapping c idx nB = some ⟨decoded (fun b => idx.count b) nB, grouped idx nB⟩ := by
    intro c
    unfold buildDenseMapping
    split
    · exact denseCounting_eq idx nB h
    · rw [denseComparison_eq idx nB h]
  rw [key, key]

/-- Non-vacuity of the dense theorems: both algorithms on a concrete input with ties and an empty group. -/
example : (∀ b ∈ [3, 1, 3, 0], b < 5) ∧
    buildDenseMapping (fun _ _ => true) [3, 1, 3, 0] 5 = some ⟨[0, 1, 3, 3], [3, 1, 0, 2]⟩ := by
  decide

/-- C03. Encoding a sorted list of groups and decoding it again gives the list. -/
theorem sparse_decode_encode (d : List Nat) (n : Nat) (hs : d.Pairwise (· ≤ ·)) (h : ∀ b ∈ d, b < n) :
    sparseDecode (sparseEncode d n) = some d := by
  rw [sparseEncode_eq_psum d hs, sparseDecode_eq, decoded_of_sorted d n hs h]

/-- C03. Decoding a valid index pointer (starts with 0, never decreases) and encoding it again gives it back,
and the decoded list is sorted with all groups in range. -/
theorem sparse_encode_decode (p : List Nat) (n : Nat) (hl : p.length = n + 1) (h0 : p[0]? = some 0)
    (hs : p.Pairwise (· ≤ ·)) :
    ∃ d, sparseDecode p = some d ∧ d.Pairwise (· ≤ ·) ∧ (∀ b ∈ d, b < n) ∧ sparseEncode d n = p := by
  obtain ⟨f, rfl⟩ := indptr_eq_psum p n hl h0 hs
  refine ⟨_, sparseDecode_eq f n, decoded_sorted f n, fun b hb => decoded_mem f n b hb, ?_⟩
  rw [sparseEncode_eq_psum _ (decoded_sorted f n)]
  apply tab_congr
  intro i hi
  apply psum_congr
  intro j hj
  rw [decoded_count, if_pos (by omega)]

/-- C03. The sparse and the dense representation of the same grouping are observationally equal: same number
of groups, same number of elements, the same element range for every group, the same group for every element. -/
theorem grouped_vectors_agree (d : List Nat) (n : Nat) (hs : d.Pairwise (· ≤ ·)) (h : ∀ b ∈ d, b < n) :
    let s := SparseVec.fromDense d n
    let v := DenseVec.fromDense d n
    s.size = v.size ∧ s.elementSize = some v.elementSize ∧
      (∀ g, g < n → s.elementRange g = some (v.elementRange g)) ∧
      (∀ e, e < d.length → (v.group e).map Int.ofNat = some (s.group e)) := by
  have henc := sparseEncode_eq d hs n
  have hne : (sparseEncode d n).isEmpty = false := by rw [henc, tab_succ]; rfl
  have hall : d.countP (· < n) = d.length := by
    rw [List.countP_eq_length]; intro a ha; simpa using h a ha
  simp only [SparseVec.fromDense, SparseVec.fromSparse, hne, DenseVec.fromDense]
  refine ⟨?_, ?_, ?_, ?_⟩
  · simp [SparseVec.size, DenseVec.size, henc]
  · simp [SparseVec.elementSize, DenseVec.elementSize, henc, tab_succ', hall]
  · intro g hg
    have h1 : g < n + 1 := by omega
    have hu : d.countP (· < g + 1) = d.countP (· ≤ g) := by
      apply List.countP_congr
      intro x _
      simp only [decide_eq_true_eq]
      omega
    simp [SparseVec.elementRange, DenseVec.elementRange, henc, h1, hg, lowerBound_sorted d hs,
      upperBound_sorted d hs, hu]
  · intro e he
    simp only [DenseVec.group, SparseVec.group, List.getElem?_eq_getElem he, Option.map_some, Option.some.injEq]
    have hsorted : (sparseEncode d n).Pairwise (· ≤ ·) := by
      rw [henc, List.pairwise_iff_getElem]
      intro i j hi hj hij
      simp only [tab_getElem]
      apply List.countP_mono_left
      intro x _ hx
      simp at *; omega
    have hval : ∀ g, d.countP (· < g) ≤ e ↔ g ≤ d[e] := by
      intro g
      constructor
      · intro hle
        apply Classical.byContradiction
        intro hcon
        have hlt : d[e] < g := by omega
        have : (d.take (e + 1)).countP (· < g) = e + 1 := by
          have hl : (d.take (e + 1)).length = e + 1 := by simp; omega
          conv => rhs; rw [← hl]
          rw [List.countP_eq_length]
          intro x hx
          obtain ⟨i, hi, rfl⟩ := List.getElem_of_mem hx
          have hi2 : i < e + 1 := by omega
          simp only [List.getElem_take, decide_eq_true_eq]
          have : i = e ∨ i < e := by omega
          rcases this with rfl | h'
          · exact hlt
          · have := (List.pairwise_iff_getElem.mp hs) i e (by omega) he h'
            omega
        have h2 : d.countP (· < g) = (d.take (e + 1)).countP (· < g) + (d.drop (e + 1)).countP (· < g) := by
          rw [← List.countP_append, List.take_append_drop]
        omega
      · intro hle
        have h2 : d.countP (· < g) = (d.take e).countP (· < g) + (d.drop e).countP (· < g) := by
          rw [← List.countP_append, List.take_append_drop]
        have h3 : (d.drop e).countP (· < g) = 0 := by
          rw [List.countP_eq_zero]
          intro x hx
          obtain ⟨i, hi, rfl⟩ := List.getElem_of_mem hx
          simp only [List.getElem_drop, decide_eq_true_eq]
          rcases Nat.eq_zero_or_pos i with rfl | hpos
          · simp; omega
          · have hi' : e + i < d.length := by simp at hi; omega
            have := (List.pairwise_iff_getElem.mp hs) e (e + i) he hi' (by omega)
            omega
        have h4 : (d.take e).countP (· < g) ≤ (d.take e).length := List.countP_le_length
        simp at h4
        omega
    simp only [Bool.false_eq_true, if_false]
    rw [upperBound_sorted _ hsorted, henc]
    have hcount : (tab (n + 1) (fun g => d.countP (· < g))).countP (· ≤ e) = d[e] + 1 := by
      have hde : d[e] < n := h _ (List.getElem_mem he)
      unfold tab
      rw [List.countP_map]
      have : (List.range (n + 1)).countP ((fun x => decide (x ≤ e)) ∘ fun g => d.countP (· < g)) =
          (List.range (n + 1)).countP (fun g => decide (g ≤ d[e])) := by
        apply List.countP_congr
        intro g _
        simp only [Function.comp_apply, decide_eq_true_eq]
        exact hval g
      rw [this]
      have gen : ∀ m k, k < m → (List.range m).countP (fun g => decide (g ≤ k)) = k + 1 := by
        intro m k hk
        induction m with
        | zero => omega
        | succ m ih =>
          rw [List.range_succ, List.countP_append]
          by_cases hkm : k < m
          · rw [ih hkm]; simp; omega
          · have : k = m := by omega
            subst this
            have : (List.range k).countP (fun g => decide (g ≤ k)) = k := by
              conv => rhs; rw [← List.length_range (n := k)]
              rw [List.countP_eq_length]
              intro a ha; have := List.mem_range.mp ha; simp; omega
            rw [this]; simp
      exact gen (n + 1) d[e] (by omega)
    rw [hcount]
    simp

/-- C03. The range of a group is what it should be: position `k` is in the range of `g` iff element `k` belongs
to group `g`. -/
theorem dense_range_meaning (d : List Nat) (hs : d.Pairwise (· ≤ ·)) (n g k : Nat) (hk : k < d.length) :
    let r := (DenseVec.fromDense d n).elementRange g
    (r.1 ≤ k ∧ k < r.2) ↔ (DenseVec.fromDense d n).group k = some g := by
  simp only [DenseVec.elementRange, DenseVec.fromDense, DenseVec.group, lowerBound_sorted d hs,
    upperBound_sorted d hs, List.getElem?_eq_getElem hk, Option.some.injEq]
  have cnt : ∀ (p : Nat → Bool) (_ : ∀ a b, a ≤ b → p b = true → p a = true), (k < d.countP p ↔ p d[k] = true) := by
    intro p hp
    have h2 : d.countP p = (d.take (k + 1)).countP p + (d.drop (k + 1)).countP p := by
      rw [← List.countP_append, List.take_append_drop]
    have h2' : d.countP p = (d.take k).countP p + (d.drop k).countP p := by
      rw [← List.countP_append, List.take_append_drop]
    constructor
    · intro hlt
      cases hpk : p d[k] with
      | true => rfl
      | false =>
        have h3 : (d.drop k).countP p = 0 := by
          rw [List.countP_eq_zero]
          intro x hx hpx
          obtain ⟨i, hi, rfl⟩ := List.getElem_of_mem hx
          simp only [List.getElem_drop] at hpx
          simp at hi
          have hle : d[k] ≤ d[k + i] := by
            rcases Nat.eq_zero_or_pos i with rfl | hpos
            · simp
            · exact (List.pairwise_iff_getElem.mp hs) k (k + i) hk (by omega) (by omega)
          rw [hp _ _ hle hpx] at hpk
          cases hpk
        have h4 : (d.take k).countP p ≤ (d.take k).length := List.countP_le_length
        simp at h4
        omega
    · intro hpk
      have hl : (d.take (k + 1)).length = k + 1 := by simp; omega
      have : (d.take (k + 1)).countP p = (d.take (k + 1)).length := by
        rw [List.countP_eq_length]
        intro x hx
        obtain ⟨i, hi, rfl⟩ := List.getElem_of_mem hx
        have hi2 : i < k + 1 := by omega
        simp only [List.getElem_take]
        have : i = k ∨ i < k := by omega
        rcases this with rfl | h'
        · exact hpk
        · exact hp _ _ ((List.pairwise_iff_getElem.mp hs) i k (by omega) hk h') hpk
      omega
  have c1 := cnt (fun x => decide (x < g)) (by intro a b hab hb; simp at *; omega)
  have c2 := cnt (fun x => decide (x ≤ g)) (by intro a b hab hb; simp at *; omega)
  simp only [decide_eq_true_eq] at c1 c2
  omega

/-- C03. A dense vector built from a sparse index pointer describes the same grouping. -/
theorem dense_from_sparse (d : List Nat) (n : Nat) (hs : d.Pairwise (· ≤ ·)) (h : ∀ b ∈ d, b < n) :
    DenseVec.fromSparse (sparseEncode d n) = some (DenseVec.fromDense d n) := by
  unfold DenseVec.fromSparse
  rw [sparse_decode_encode d n hs h]
  simp [DenseVec.fromDense, sparseEncode_eq d hs]

/-- C03. Stepping the group iterator forward gives the same range as looking the next group up. -/
theorem dense_iter_increment (d : List Nat) (hs : d.Pairwise (· ≤ ·)) (n g : Nat) :
    let v := DenseVec.fromDense d n
    (v.iterAt g).increment v = v.iterAt (g + 1) := by
  simp only [DenseVec.iterAt, DenseVec.Iter.increment, DenseVec.elementRange, DenseVec.fromDense,
    lowerBound_sorted d hs, upperBound_sorted d hs]
  have e : d.countP (· ≤ g) = d.countP (· < g + 1) := by
    apply List.countP_congr
    intro x _
    simp only [decide_eq_true_eq]
    omega
  have e2 : (fun x => !decide (x > g + 1)) = (fun x => decide (x ≤ g + 1)) := by
    funext x; rw [Bool.eq_iff_iff]; simp
  have hle : d.countP (· ≤ g) ≤ d.countP (· ≤ g + 1) := by
    apply List.countP_mono_left
    intro x _ hx; simp at *; omega
  have := drop_takeWhile_sorted (fun x => decide (x ≤ g + 1)) (by intro a b hab hb; simp at *; omega) d hs _ hle
  rw [e2, this, e]

/-- C03. Jumping the group iterator to any other group gives the same range as looking that group up. -/
theorem dense_iter_advance (d : List Nat) (hs : d.Pairwise (· ≤ ·)) (n g g' : Nat) :
    let v := DenseVec.fromDense d n
    (v.iterAt g).advanceTo v g' = v.iterAt g' := by
  simp only [DenseVec.iterAt, DenseVec.Iter.advanceTo, DenseVec.elementRange, DenseVec.fromDense,
    lowerBound_sorted d hs, upperBound_sorted d hs]
  have key : ∀ (p : Nat → Bool) (_ : ∀ a b, a ≤ b → p b = true → p a = true) (start stop : Nat),
      start ≤ d.countP p → d.countP p ≤ stop →
      start + (((d.take stop).drop start).takeWhile p).length = d.countP p := by
    intro p hp start stop h1 h2
    have hst : (d.take stop).Pairwise (· ≤ ·) := List.Pairwise.sublist (List.take_sublist _ _) hs
    have hc : (d.take stop).countP p = d.countP p := by
      have h3 : d.countP p = (d.take stop).countP p + (d.drop stop).countP p := by
        rw [← List.countP_append, List.take_append_drop]
      apply Classical.byContradiction
      intro hne
      have hpos : 0 < (d.drop stop).countP p := by omega
      obtain ⟨x, hx, hpx⟩ := List.countP_pos_iff.mp hpos
      have hall : (d.take stop).countP p = (d.take stop).length := by
        rw [List.countP_eq_length]
        intro y hy
        have hp2 := List.pairwise_append.mp (by rw [List.take_append_drop]; exact hs :
          (d.take stop ++ d.drop stop).Pairwise (· ≤ ·))
        exact hp y x (hp2.2.2 y hy x hx) hpx
      have hlen : stop < d.length := by
        have := List.length_pos_of_mem hx
        simp at this; omega
      have : (d.take stop).length = stop := by simp; omega
      omega
    have := drop_takeWhile_sorted p hp (d.take stop) hst start (by omega)
    omega
  have hsub : ∀ (start stop v : Nat), lowerBound ((d.take stop).drop start) v =
      (((d.take stop).drop start).takeWhile (fun x => decide (x < v))).length := fun _ _ _ => rfl
  have hsub' : ∀ (start stop v : Nat), upperBound ((d.take stop).drop start) v =
      (((d.take stop).drop start).takeWhile (fun x => decide (x ≤ v))).length := fun _ _ _ => rfl
  rw [hsub, hsub']
  have m1 : ∀ a b, a ≤ b → d.countP (· < a) ≤ d.countP (· < b) := by
    intro a b hab
    apply List.countP_mono_left; intro x _ hx; simp at *; omega
  have m2 : ∀ a, d.countP (· ≤ a) = d.countP (· < a + 1) := by
    intro a
    apply List.countP_congr
    intro x _
    simp only [decide_eq_true_eq]
    omega
  have hl : ∀ p, d.countP p ≤ d.length := fun p => List.countP_le_length
  have q1 := key (fun x => decide (x < g')) (by intro a b hab hb; simp at *; omega)
  have q2 := key (fun x => decide (x ≤ g')) (by intro a b hab hb; simp at *; omega)
  rcases Nat.lt_trichotomy g' g with hlt | heq | hgt
  · have n1 : ¬ g' > g := by omega
    simp only [hlt, n1, if_true, if_false]
    have a1 := m1 g' g (by omega)
    have a2 := m1 (g' + 1) g (by omega)
    have b2 := m2 g'
    rw [q1 0 _ (by omega) (by omega), q2 0 _ (by omega) (by omega)]
  · subst heq
    simp only [Nat.lt_irrefl, gt_iff_lt, if_false]
    rw [q1 0 _ (by omega) (hl _), q2 0 _ (by omega) (hl _)]
  · have n1 : ¬ g' < g := by omega
    simp only [hgt, n1, if_true, if_false]
    have a1 := m1 (g + 1) g' (by omega)
    have a2 := m1 (g + 1) (g' + 1) (by omega)
    have b1 := m2 g
    have b2 := m2 g'
    rw [q1 _ _ (by omega) (hl _), q2 _ _ (by omega) (hl _)]

/-- C03. Stepping the group iterator backward gives the same range as looking the previous group up. -/
theorem dense_iter_decrement (d : List Nat) (hs : d.Pairwise (· ≤ ·)) (n g : Nat) :
    let v := DenseVec.fromDense d n
    (v.iterAt (g + 1)).decrement v = v.iterAt g := by
  simp only [DenseVec.iterAt, DenseVec.Iter.decrement, DenseVec.elementRange, DenseVec.fromDense,
    lowerBound_sorted d hs, upperBound_sorted d hs, Nat.add_sub_cancel]
  have e : d.countP (· ≤ g) = d.countP (· < g + 1) := by
    apply List.countP_congr
    intro x _
    simp only [decide_eq_true_eq]
    omega
  have key : ∀ r : List Nat, r.Pairwise (· ≥ ·) →
      (r.takeWhile (fun x => !decide (x < g))).length + r.countP (· < g) = r.length := by
    intro r hr
    induction r with
    | nil => simp
    | cons a r ih =>
      rw [List.pairwise_cons] at hr
      have ih' := ih hr.2
      by_cases h : a < g
      · have hall : r.countP (· < g) = r.length := by
          rw [List.countP_eq_length]
          intro x hx
          have := hr.1 x hx
          simp; omega
        simp [h, hall]
      · simp [h]; omega
  have hrev : ((d.take (d.countP (· < g + 1))).reverse).Pairwise (· ≥ ·) := by
    rw [List.pairwise_reverse]
    exact List.Pairwise.sublist (List.take_sublist _ _) hs
  have k := key _ hrev
  have hsplit : d.countP (· < g) = (d.take (d.countP (· < g + 1))).countP (· < g) +
      (d.drop (d.countP (· < g + 1))).countP (· < g) := by
    rw [← List.countP_append, List.take_append_drop]
  have hz : (d.drop (d.countP (· < g + 1))).countP (· < g) = 0 := by
    rw [List.countP_eq_zero]
    intro x hx
    obtain ⟨i, hi, rfl⟩ := List.getElem_of_mem hx
    simp at hi
    have hk : d.countP (· < g + 1) + i < d.length := by omega
    have := (dense_range_meaning d hs n d[d.countP (· < g + 1) + i] (d.countP (· < g + 1) + i) hk).mpr
      (by simp [DenseVec.group, DenseVec.fromDense, hk])
    simp only [DenseVec.elementRange, DenseVec.fromDense, lowerBound_sorted d hs, upperBound_sorted d hs] at this
    simp only [List.getElem_drop, decide_eq_true_eq]
    intro hlt
    have hmono : d.countP (· ≤ d[d.countP (· < g + 1) + i]) ≤ d.countP (· < g + 1) := by
      apply List.countP_mono_left
      intro x _ hx
      simp at *; omega
    omega
  have hle : d.countP (· < g + 1) ≤ d.length := List.countP_le_length
  simp only [List.countP_reverse, List.length_reverse, List.length_take] at k
  rw [e]
  congr 1
  omega

/-- Non-vacuity of the C03 theorems. -/
example : ([0, 1, 1, 4] : List Nat).Pairwise (· ≤ ·) ∧ (∀ b ∈ [0, 1, 1, 4], b < 6) ∧
    sparseEncode [0, 1, 1, 4] 6 = [0, 1, 3, 3, 3, 4, 4] ∧ sparseDecode [0, 1, 3, 3, 3, 4, 4] = some [0, 1, 1, 4] ∧
    (SparseVec.fromDense [0, 1, 1, 4] 6).group 3 = 4 ∧
    (DenseVec.fromDense [0, 1, 1, 4] 6).elementRange 1 = (1, 3) := by
  refine ⟨by decide, by decide, by decide, by decide, by decide, by decide⟩

end PGM.Index
