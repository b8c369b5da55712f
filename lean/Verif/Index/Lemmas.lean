import Verif.Index.Model

namespace PGM.Index

/-! ## Counting pass and scan -/

theorem countStep_tab (nB : Nat) (f : Nat → Nat) (b : Nat) (h : b < nB) :
    countStep (tab nB f) b = some (tab nB (upd f b (f b + 1))) := by
  simp [countStep, h, setAt?_tab]

theorem countPass_aux (nB : Nat) (idx : List Nat) (f : Nat → Nat) (h : ∀ b ∈ idx, b < nB) :
    idx.foldlM countStep (tab nB f) = some (tab nB (fun b => f b + idx.count b)) := by
  induction idx generalizing f with
  | nil => simp
  | cons a l ih =>
    have ha : a < nB := h a (by simp)
    simp only [List.foldlM_cons, countStep_tab _ _ _ ha, Option.bind_eq_bind, Option.bind_some]
    rw [ih _ (fun b hb => h b (by simp [hb]))]
    congr 1
    apply tab_congr
    intro b _
    by_cases hba : b = a
    · subst hba; simp [upd]; omega
    · have : ¬ a = b := fun h => hba h.symm
      simp [upd, hba, this]

theorem countPass_eq (nB : Nat) (idx : List Nat) (h : ∀ b ∈ idx, b < nB) :
    countPass idx nB = some (tab nB (fun b => idx.count b)) := by
  unfold countPass
  rw [replicate_eq_tab, countPass_aux nB idx _ h]
  simp

theorem countPass_aux_none (nB : Nat) (idx : List Nat) (f : Nat → Nat) (h : ∃ b ∈ idx, nB ≤ b) :
    idx.foldlM countStep (tab nB f) = none := by
  induction idx generalizing f with
  | nil => simp at h
  | cons a l ih =>
    by_cases ha : a < nB
    · simp only [List.foldlM_cons, countStep_tab _ _ _ ha, Option.bind_eq_bind, Option.bind_some]
      apply ih
      obtain ⟨b, hb, hn⟩ := h
      rcases List.mem_cons.mp hb with rfl | hb
      · omega
      · exact ⟨b, hb, hn⟩
    · simp [List.foldlM_cons, countStep, ha]

theorem inclusiveScan_tab (n : Nat) (f : Nat → Nat) (acc : Nat) :
    inclusiveScan acc (tab n f) = tab n (fun b => acc + psum f (b + 1)) := by
  induction n generalizing f acc with
  | zero => simp [tab, inclusiveScan]
  | succ n ih =>
    rw [tab_succ, inclusiveScan, ih, tab_succ]
    have key : ∀ k, psum (fun i => f (i + 1)) k + f 0 = psum f (k + 1) := by
      intro k
      induction k with
      | zero => simp [psum]
      | succ k ihk => simp only [psum] at *; omega
    congr 1
    · simp [psum]
    · apply tab_congr
      intro i _
      have := key (i + 1)
      omega

theorem psum_count (idx : List Nat) (b : Nat) :
    psum (fun i => idx.count i) b = idx.countP (· < b) := by
  induction idx with
  | nil => simp [psum_zero]
  | cons a l ih =>
    have : (fun i => (a :: l).count i) = fun i => l.count i + (if i = a then 1 else 0) := by
      funext i; simp [List.count_cons]
      by_cases h : a = i <;> simp [h, eq_comm]
    rw [this, psum_add, ih, psum_single, List.countP_cons]
    simp

theorem psum_count_total (idx : List Nat) (nB : Nat) (h : ∀ b ∈ idx, b < nB) :
    psum (fun i => idx.count i) nB = idx.length := by
  rw [psum_count, List.countP_eq_length]
  intro a ha
  simpa using h a ha

/-! ## Scatter pass -/

/-- Elements of group `b` among entries, in order. -/
def sel (b : Nat) (es : List (Nat × Nat)) : List Nat := (es.filter (fun e => e.2 == b)).map Prod.fst

theorem sel_cons_self (i b : Nat) (es : List (Nat × Nat)) : sel b ((i, b) :: es) = i :: sel b es := by
  simp [sel]

theorem sel_cons_ne (i : Nat) {b b' : Nat} (es : List (Nat × Nat)) (h : b' ≠ b) :
    sel b' ((i, b) :: es) = sel b' es := by
  have : ¬ b = b' := fun h' => h h'.symm
  simp [sel, this]

theorem sel_length (b : Nat) (es : List (Nat × Nat)) : (sel b es).length = (es.map Prod.snd).count b := by
  induction es with
  | nil => simp [sel]
  | cons e es ih =>
    obtain ⟨i, c⟩ := e
    by_cases h : b = c
    · subst h; rw [sel_cons_self]; simp [ih]
    · rw [sel_cons_ne i es h]
      have : ¬ c = b := fun h' => h h'.symm
      simp [ih, this]

/-- The suffix `s` of the entries has been scattered. -/
structure Scattered (nB nA : Nat) (f : Nat → Nat) (s : List (Nat × Nat)) (st : List Nat × List Nat) : Prop where
  counter : st.1 = tab nB (fun b => psum f (b + 1) - (sel b s).length)
  len : st.2.length = nA
  slot : ∀ b, b < nB → ∀ j, j < (sel b s).length →
    st.2[psum f (b + 1) - (sel b s).length + j]? = (sel b s)[j]?

theorem scatter_aux (nB nA : Nat) (f : Nat → Nat) (hA : psum f nB ≤ nA) (s : List (Nat × Nat))
    (hs : ∀ e ∈ s, e.2 < nB) (hcnt : ∀ b, b < nB → (sel b s).length ≤ f b) (r : List Nat) (hr : r.length = nA) :
    ∃ st, s.foldrM scatterStep (tab nB (fun b => psum f (b + 1)), r) = some st ∧ Scattered nB nA f s st := by
  induction s with
  | nil =>
    refine ⟨_, rfl, ?_, hr, ?_⟩
    · simp [sel]
    · intro b _ j hj; simp [sel] at hj
  | cons e s ih =>
    obtain ⟨i, b⟩ := e
    have hb : b < nB := hs (i, b) (by simp)
    have hcnt' : ∀ b, b < nB → (sel b s).length ≤ f b := by
      intro b' hb'
      refine Nat.le_trans ?_ (hcnt b' hb')
      by_cases h : b' = b
      · subst h; rw [sel_cons_self]; simp
      · rw [sel_cons_ne i s h]; exact Nat.le_refl _
    obtain ⟨st, hst, hinv⟩ := ih (fun e he => hs e (by simp [he])) hcnt'
    have hlt : (sel b s).length < f b := by
      have := hcnt b hb
      rw [sel_cons_self, List.length_cons] at this
      omega
    have hpos : psum f (b + 1) = psum f b + f b := rfl
    have htot : psum f (b + 1) ≤ psum f nB := psum_mono f hb
    obtain ⟨c, hc⟩ : ∃ c, psum f (b + 1) - (sel b s).length = c + 1 :=
      ⟨psum f (b + 1) - (sel b s).length - 1, by omega⟩
    have hcA : c < st.2.length := by rw [hinv.len]; omega
    refine ⟨(tab nB (upd (fun b => psum f (b + 1) - (sel b s).length) b c), st.2.set c i), ?_, ?_, ?_, ?_⟩
    · rw [List.foldrM_cons, hst]
      obtain ⟨st1, st2⟩ := st
      have hc1 : st1 = _ := hinv.counter
      simp only at hc1 hcA
      simp [scatterStep, hc1, hb, hc, setAt?, hcA, tab_set]
    · simp only
      apply tab_congr
      intro b' _
      by_cases h : b' = b
      · subst h; rw [sel_cons_self]; simp; omega
      · rw [upd_ne _ _ h, sel_cons_ne i s h]
    · simpa using hinv.len
    · intro b' hb' j hj
      simp only
      by_cases h : b' = b
      · subst h
        rw [sel_cons_self] at *
        have e1 : psum f (b' + 1) - (i :: sel b' s).length = c := by simp; omega
        rw [e1]
        cases j with
        | zero => simp [hcA]
        | succ j =>
          have hj' : j < (sel b' s).length := by simpa using hj
          rw [List.getElem?_set]
          have : ¬ c = c + (j + 1) := by omega
          have e2 : c + (j + 1) = psum f (b' + 1) - (sel b' s).length + j := by omega
          rw [if_neg this, e2, hinv.slot b' hb' j hj']
          simp
      · rw [sel_cons_ne i s h] at *
        have hle : (sel b' s).length ≤ f b' := hcnt' b' hb'
        have hpos' : psum f (b' + 1) = psum f b' + f b' := rfl
        have hne : c ≠ psum f (b' + 1) - (sel b' s).length + j := by
          intro heq
          exact h (psum_block_unique f (a := b') (b := b) (k := c) (by omega) (by omega) (by omega) (by omega))
        rw [List.getElem?_set, if_neg hne, hinv.slot b' hb' j hj]

theorem entries_snd (idx : List Nat) : (entries idx).map Prod.snd = idx := by
  unfold entries
  apply List.map_snd_zip
  simp

theorem entries_mem_lt (idx : List Nat) (nB : Nat) (h : ∀ b ∈ idx, b < nB) :
    ∀ e ∈ entries idx, e.2 < nB := by
  intro e he
  apply h
  rw [← entries_snd idx]
  exact List.mem_map_of_mem he

/-- Everything `buildSparseMapping` guarantees, in internal terms. -/
theorem buildSparseMapping_spec (idx : List Nat) (nB : Nat) (h : ∀ b ∈ idx, b < nB) :
    ∃ r, buildSparseMapping idx nB = some ⟨tab (nB + 1) (psum (fun b => idx.count b)), r⟩ ∧
      r.length = idx.length ∧
      ∀ b, b < nB → ∀ j, j < idx.count b →
        r[psum (fun b => idx.count b) b + j]? = (sel b (entries idx))[j]? := by
  have hlen : ∀ b, (sel b (entries idx)).length = idx.count b := by
    intro b; rw [sel_length, entries_snd]
  obtain ⟨st, hst, hinv⟩ := scatter_aux nB idx.length (fun b => idx.count b)
    (by rw [psum_count_total idx nB h]; exact Nat.le_refl _) (entries idx) (entries_mem_lt idx nB h)
    (fun b _ => by rw [hlen]; exact Nat.le_refl _)
    (List.replicate idx.length 0) (by simp)
  refine ⟨st.2, ?_, hinv.len, ?_⟩
  · unfold buildSparseMapping
    rw [countPass_eq nB idx h]
    simp only [Option.bind_eq_bind, Option.bind_some]
    rw [inclusiveScan_tab]
    simp only [Nat.zero_add]
    rw [hst]
    simp [tab_succ, psum]
  · intro b hb j hj
    have := hinv.slot b hb j (by rw [hlen]; exact hj)
    rw [hlen] at this
    have e : psum (fun b => idx.count b) (b + 1) = psum (fun b => idx.count b) b + idx.count b := rfl
    rw [← this]
    congr 1
    omega

/-! ## Selections as filters of the index range -/

theorem zipIdx_sel (idx : List Nat) (b k : Nat) :
    sel b ((List.range' k idx.length).zip idx) =
      (List.range' k idx.length).filter (fun i => idx[i - k]? == some b) := by
  induction idx generalizing k with
  | nil => simp [sel]
  | cons a l ih =>
    simp only [List.length_cons, List.range'_succ, List.zip_cons_cons]
    have tail : (List.range' (k + 1) l.length).filter (fun i => (a :: l)[i - k]? == some b) =
        (List.range' (k + 1) l.length).filter (fun i => l[i - (k + 1)]? == some b) := by
      apply List.filter_congr
      intro i hi
      have := (List.mem_range'_1.mp hi).1
      have e : i - k = (i - (k + 1)) + 1 := by omega
      rw [e]; simp
    by_cases h : b = a
    · subst h
      rw [sel_cons_self, ih, List.filter_cons, tail]
      simp
    · rw [sel_cons_ne k _ h, ih, List.filter_cons, tail]
      have : ¬ a = b := fun h' => h h'.symm
      simp [this]

theorem sel_entries (idx : List Nat) (b : Nat) :
    sel b (entries idx) = (List.range idx.length).filter (fun i => idx[i]? == some b) := by
  have := zipIdx_sel idx b 0
  simpa [entries, List.range_eq_range'] using this

end PGM.Index
