import Verif.Index.Lemmas2

namespace PGM.Index

/-! ## Concatenated blocks -/

theorem flatMap_blocks_length {α} (g : Nat → List α) (n : Nat) :
    ((List.range n).flatMap g).length = psum (fun b => (g b).length) n := by
  induction n with
  | zero => rfl
  | succ n ih => rw [List.range_succ, List.flatMap_append]; simp [ih, psum]

theorem flatMap_blocks_getElem? {α} (g : Nat → List α) (n b j : Nat) (hb : b < n) (hj : j < (g b).length) :
    ((List.range n).flatMap g)[psum (fun b => (g b).length) b + j]? = (g b)[j]? := by
  induction n with
  | zero => omega
  | succ n ih =>
    rw [List.range_succ, List.flatMap_append]
    have hlen := flatMap_blocks_length g n
    by_cases h : b < n
    · have h2 : psum (fun b => (g b).length) b + j < psum (fun b => (g b).length) n := by
        have := psum_mono (fun b => (g b).length) (a := b + 1) (b := n) (by omega)
        simp only [psum] at this; omega
      rw [List.getElem?_append_left (by omega)]
      exact ih h
    · have : b = n := by omega
      subst this
      rw [List.getElem?_append_right (by omega)]
      simp [hlen]

theorem eq_flatMap_of_slots {α} (g : Nat → List α) (n : Nat) (r : List α)
    (hlen : r.length = psum (fun b => (g b).length) n)
    (h : ∀ b, b < n → ∀ j, j < (g b).length → r[psum (fun b => (g b).length) b + j]? = (g b)[j]?) :
    r = (List.range n).flatMap g := by
  apply List.ext_getElem?
  intro k
  by_cases hk : k < psum (fun b => (g b).length) n
  · obtain ⟨b, hb, h1, h2⟩ := psum_block_exists _ hk
    simp only [psum] at h2
    obtain ⟨j, rfl⟩ : ∃ j, k = psum (fun b => (g b).length) b + j := ⟨k - psum (fun b => (g b).length) b, by omega⟩
    rw [h b hb j (by omega), flatMap_blocks_getElem? g n b j hb (by omega)]
  · rw [List.getElem?_eq_none (by omega), List.getElem?_eq_none (by rw [flatMap_blocks_length]; omega)]

theorem flatMap_filter_perm {α} (key : α → Nat) (l : List α) (n : Nat) :
    ((List.range n).flatMap (fun b => l.filter (fun x => key x == b))).Perm (l.filter (fun x => key x < n)) := by
  induction n with
  | zero => simp
  | succ n ih =>
    rw [List.range_succ, List.flatMap_append]
    simp only [List.flatMap_cons, List.flatMap_nil, List.append_nil]
    have hp := List.filter_append_perm (fun x => decide (key x < n)) (l.filter (fun x => decide (key x < n + 1)))
    rw [List.filter_filter, List.filter_filter] at hp
    refine List.Perm.trans ?_ hp
    refine List.Perm.append (ih.trans ?_) ?_
    · apply List.Perm.of_eq
      apply List.filter_congr
      intro x _
      by_cases h : key x < n
      · have : key x < n + 1 := by omega
        simp [h, this]
      · simp [h]
    · apply List.Perm.of_eq
      apply List.filter_congr
      intro x _
      rw [Bool.eq_iff_iff]
      simp
      omega

/-- Stable grouping of positions: the specification list. -/
def grouped (idx : List Nat) (n : Nat) : List Nat :=
  (List.range n).flatMap (fun b => (List.range idx.length).filter (fun i => idx[i]? == some b))

theorem sel_entries_length (idx : List Nat) (b : Nat) :
    ((List.range idx.length).filter (fun i => idx[i]? == some b)).length = idx.count b := by
  rw [← sel_entries, sel_length, entries_snd]

theorem psum_sel (idx : List Nat) :
    (fun b => ((List.range idx.length).filter (fun i => idx[i]? == some b)).length) = fun b => idx.count b := by
  funext b; exact sel_entries_length idx b

theorem buildSparseMapping_eq (idx : List Nat) (nB : Nat) (h : ∀ b ∈ idx, b < nB) :
    buildSparseMapping idx nB = some ⟨tab (nB + 1) (psum (fun b => idx.count b)), grouped idx nB⟩ := by
  obtain ⟨r, hr, hlen, hslot⟩ := buildSparseMapping_spec idx nB h
  rw [hr]
  congr 2
  apply eq_flatMap_of_slots
  · rw [psum_sel, psum_count_total idx nB h, hlen]
  · intro b hb j hj
    rw [psum_sel]
    rw [sel_entries_length] at hj
    rw [hslot b hb j hj, sel_entries]

theorem grouped_perm (idx : List Nat) (nB : Nat) (h : ∀ b ∈ idx, b < nB) :
    (grouped idx nB).Perm (List.range idx.length) := by
  have hp := flatMap_filter_perm (fun i => idx.getD i 0) (List.range idx.length) nB
  have e1 : (List.range nB).flatMap (fun b => (List.range idx.length).filter (fun i => idx.getD i 0 == b)) =
      grouped idx nB := by
    unfold grouped
    congr 1
    funext b
    apply List.filter_congr
    intro i hi
    have hi' := List.mem_range.mp hi
    simp [List.getD_eq_getElem?_getD, hi']
  have e2 : (List.range idx.length).filter (fun i => decide (idx.getD i 0 < nB)) = List.range idx.length := by
    rw [List.filter_eq_self]
    intro i hi
    have hi' := List.mem_range.mp hi
    simp only [List.getD_eq_getElem?_getD, List.getElem?_eq_getElem hi', Option.getD_some, decide_eq_true_eq]
    exact h _ (List.getElem_mem hi')
  rw [e1, e2] at hp
  exact hp

/-! ## Lexicographic order -/

theorem lexLe_trans (a b c : Nat × Nat) : lexLe a b = true → lexLe b c = true → lexLe a c = true := by
  simp [lexLe]; omega

theorem lexLe_total (a b : Nat × Nat) : (lexLe a b || lexLe b a) = true := by
  simp [lexLe]; omega

theorem lexLe_antisymm (a b : Nat × Nat) (h1 : lexLe a b = true) (h2 : lexLe b a = true) : a = b := by
  simp [lexLe] at *
  apply Prod.ext <;> omega

/-- The specification list of pairs (group, position). -/
def groupedPairs (idx : List Nat) (n : Nat) : List (Nat × Nat) :=
  (List.range n).flatMap (fun b =>
    ((List.range idx.length).filter (fun i => idx[i]? == some b)).map (fun i => (b, i)))

theorem groupedPairs_snd (idx : List Nat) (n : Nat) : (groupedPairs idx n).map Prod.snd = grouped idx n := by
  unfold groupedPairs grouped
  rw [List.map_flatMap]
  simp [List.map_map, Function.comp_def]

theorem groupedPairs_fst (idx : List Nat) (n : Nat) :
    (groupedPairs idx n).map Prod.fst = decoded (fun b => idx.count b) n := by
  unfold groupedPairs decoded
  rw [List.map_flatMap]
  congr 1
  funext b
  simp only
  rw [List.map_map, ← sel_entries_length]
  apply List.ext_getElem
  · simp
  · intro i h1 h2; simp

theorem groupedPairs_sorted (idx : List Nat) (n : Nat) :
    (groupedPairs idx n).Pairwise (fun a b => lexLe a b = true) := by
  induction n with
  | zero => simp [groupedPairs]
  | succ n ih =>
    unfold groupedPairs at *
    rw [List.range_succ, List.flatMap_append, List.pairwise_append]
    refine ⟨ih, ?_, ?_⟩
    · simp only [List.flatMap_cons, List.flatMap_nil, List.append_nil]
      rw [List.pairwise_map]
      refine List.Pairwise.imp ?_ (List.Pairwise.filter _ List.pairwise_lt_range)
      intro a b hab
      simp [lexLe]; omega
    · intro a ha b hb
      simp only [List.mem_flatMap, List.mem_map, List.mem_filter, List.mem_range, List.flatMap_cons,
        List.flatMap_nil, List.append_nil] at ha hb
      obtain ⟨g, hg, i, _, rfl⟩ := ha
      obtain ⟨j, _, rfl⟩ := hb
      simp [lexLe]; omega

theorem groupedPairs_eq_map (idx : List Nat) (n : Nat) :
    groupedPairs idx n = (grouped idx n).map (fun i => (idx.getD i 0, i)) := by
  unfold groupedPairs grouped
  rw [List.map_flatMap]
  congr 1
  funext b
  apply List.map_congr_left
  intro i hi
  simp only [List.mem_filter, List.mem_range, beq_iff_eq] at hi
  simp [List.getD_eq_getElem?_getD, hi.2]

theorem zip_range_eq_map (idx : List Nat) :
    idx.zip (List.range idx.length) = (List.range idx.length).map (fun i => (idx.getD i 0, i)) := by
  apply List.ext_getElem
  · simp
  · intro i h1 h2
    simp at h1
    simp [List.getD_eq_getElem?_getD, h1]

theorem groupedPairs_perm (idx : List Nat) (nB : Nat) (h : ∀ b ∈ idx, b < nB) :
    (groupedPairs idx nB).Perm (idx.zip (List.range idx.length)) := by
  rw [groupedPairs_eq_map, zip_range_eq_map]
  exact (grouped_perm idx nB h).map _

theorem mergeSort_eq (idx : List Nat) (nB : Nat) (h : ∀ b ∈ idx, b < nB) :
    (idx.zip (List.range idx.length)).mergeSort lexLe = groupedPairs idx nB := by
  apply List.Perm.eq_of_pairwise (le := fun a b => lexLe a b = true)
    (fun a b _ _ h1 h2 => lexLe_antisymm a b h1 h2)
  · exact List.pairwise_mergeSort (fun a b c => lexLe_trans a b c) (fun a b => lexLe_total a b) _
  · exact groupedPairs_sorted idx nB
  · exact (List.mergeSort_perm _ _).trans (groupedPairs_perm idx nB h).symm

theorem denseComparison_eq (idx : List Nat) (nB : Nat) (h : ∀ b ∈ idx, b < nB) :
    denseComparison idx = ⟨decoded (fun b => idx.count b) nB, grouped idx nB⟩ := by
  unfold denseComparison
  simp only [mergeSort_eq idx nB h, groupedPairs_fst, groupedPairs_snd]

theorem denseCounting_eq (idx : List Nat) (nB : Nat) (h : ∀ b ∈ idx, b < nB) :
    denseCounting idx nB = some ⟨decoded (fun b => idx.count b) nB, grouped idx nB⟩ := by
  unfold denseCounting
  rw [buildSparseMapping_eq idx nB h]
  simp only [Option.bind_eq_bind, Option.bind_some]
  rw [sparseDecode_eq]
  simp

end PGM.Index
