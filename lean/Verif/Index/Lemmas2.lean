import Verif.Index.Lemmas

namespace PGM.Index

/-! ## Binary searches on sorted lists -/

theorem upperBound_sorted (l : List Nat) (hs : l.Pairwise (· ≤ ·)) (v : Nat) :
    upperBound l v = l.countP (· ≤ v) := by
  induction l with
  | nil => simp [upperBound]
  | cons a l ih =>
    rw [List.pairwise_cons] at hs
    simp only [upperBound] at *
    by_cases h : a ≤ v
    · simp [h, ih hs.2]
    · have : l.countP (· ≤ v) = 0 := by
        rw [List.countP_eq_zero]
        intro x hx
        have := hs.1 x hx
        simp; omega
      simp [h, this]

theorem lowerBound_sorted (l : List Nat) (hs : l.Pairwise (· ≤ ·)) (v : Nat) :
    lowerBound l v = l.countP (· < v) := by
  induction l with
  | nil => simp [lowerBound]
  | cons a l ih =>
    rw [List.pairwise_cons] at hs
    simp only [lowerBound] at *
    by_cases h : a < v
    · simp [h, ih hs.2]
    · have : l.countP (· < v) = 0 := by
        rw [List.countP_eq_zero]
        intro x hx
        have := hs.1 x hx
        simp; omega
      simp [h, this]

/-- Searching the part after `pos` finds the global bound if `pos` is not beyond it. -/
theorem drop_takeWhile_sorted (p : Nat → Bool) (hp : ∀ a b, a ≤ b → p b = true → p a = true)
    (l : List Nat) (hs : l.Pairwise (· ≤ ·)) (pos : Nat) (h : pos ≤ l.countP p) :
    pos + ((l.drop pos).takeWhile p).length = l.countP p := by
  induction l generalizing pos with
  | nil => simp at h; simp [h]
  | cons a l ih =>
    rw [List.pairwise_cons] at hs
    have hz : p a = false → l.countP p = 0 := by
      intro hpa
      rw [List.countP_eq_zero]
      intro x hx hpx
      rw [hp a x (hs.1 x hx) hpx] at hpa
      cases hpa
    cases pos with
    | zero =>
      simp only [List.drop_zero, List.takeWhile_cons, List.countP_cons]
      cases hpa : p a with
      | true =>
        have := ih hs.2 0 (by omega)
        simp only [List.drop_zero] at this
        simp; omega
      | false => simp [hz hpa]
    | succ pos =>
      simp only [List.drop_succ_cons, List.countP_cons] at *
      cases hpa : p a with
      | true =>
        simp only [hpa, if_true] at *
        have := ih hs.2 pos (by omega)
        omega
      | false => simp [hpa, hz hpa] at h

theorem sparseEncodeLoop_eq (l : List Nat) (hs : l.Pairwise (· ≤ ·)) (g k : Nat) :
    sparseEncodeLoop l g (l.countP (· < g)) k = tab k (fun i => l.countP (· < g + i + 1)) := by
  induction k generalizing g with
  | zero => simp [sparseEncodeLoop, tab]
  | succ k ih =>
    rw [sparseEncodeLoop, tab_succ]
    have hle : l.countP (· < g) ≤ l.countP (· ≤ g) := by
      apply List.countP_mono_left
      intro x _ hx; simp at *; omega
    have h1 : l.countP (· < g) + upperBound (l.drop (l.countP (· < g))) g = l.countP (· < g + 1) := by
      have := drop_takeWhile_sorted (fun x => decide (x ≤ g)) (by intro a b hab hb; simp at *; omega) l hs
        (l.countP (· < g)) hle
      have e : l.countP (· < g + 1) = l.countP (fun x => decide (x ≤ g)) := by
        apply List.countP_congr
        intro x _
        simp only [decide_eq_true_eq]
        omega
      rw [e]
      exact this
    rw [h1, ih (g + 1)]
    congr 1
    apply tab_congr
    intro i _
    have : g + 1 + i + 1 = g + (i + 1) + 1 := by omega
    rw [this]

theorem sparseEncode_eq (l : List Nat) (hs : l.Pairwise (· ≤ ·)) (n : Nat) :
    sparseEncode l n = tab (n + 1) (fun g => l.countP (· < g)) := by
  unfold sparseEncode
  have h0 : l.countP (· < 0) = 0 := by simp
  have := sparseEncodeLoop_eq l hs 0 n
  rw [h0] at this
  rw [this, tab_succ]
  simp

theorem sparseEncode_eq_psum (l : List Nat) (hs : l.Pairwise (· ≤ ·)) (n : Nat) :
    sparseEncode l n = tab (n + 1) (psum (fun g => l.count g)) := by
  rw [sparseEncode_eq l hs]
  apply tab_congr
  intro g _
  rw [psum_count]

/-! ## Decoding -/

/-- Blocks of sizes `f 0, f 1, ...`, the `g`-th filled with `g`. -/
def decoded (f : Nat → Nat) (n : Nat) : List Nat := (List.range n).flatMap (fun g => List.replicate (f g) g)

theorem decoded_succ (f : Nat → Nat) (n : Nat) : decoded f (n + 1) = decoded f n ++ List.replicate (f n) n := by
  simp [decoded, List.range_succ]

theorem decoded_length (f : Nat → Nat) (n : Nat) : (decoded f n).length = psum f n := by
  induction n with
  | zero => rfl
  | succ n ih => rw [decoded_succ]; simp [ih, psum]

theorem decoded_mem (f : Nat → Nat) (n x : Nat) (h : x ∈ decoded f n) : x < n := by
  simp only [decoded, List.mem_flatMap, List.mem_range] at h
  obtain ⟨g, hg, hx⟩ := h
  rw [List.eq_of_mem_replicate hx]; exact hg

theorem decoded_sorted (f : Nat → Nat) (n : Nat) : (decoded f n).Pairwise (· ≤ ·) := by
  induction n with
  | zero => simp [decoded]
  | succ n ih =>
    rw [decoded_succ, List.pairwise_append]
    refine ⟨ih, ?_, ?_⟩
    · rw [List.pairwise_replicate]; right; exact Nat.le_refl _
    · intro a ha b hb
      have := decoded_mem f n a ha
      rw [List.eq_of_mem_replicate hb]; omega

theorem decoded_count (f : Nat → Nat) (n g : Nat) : (decoded f n).count g = if g < n then f g else 0 := by
  induction n with
  | zero => simp [decoded]
  | succ n ih =>
    rw [decoded_succ, List.count_append, ih, List.count_replicate]
    by_cases h1 : g < n
    · have h2 : ¬ n = g := by omega
      have h3 : g < n + 1 := by omega
      simp [h1, h2, h3]
    · by_cases h2 : n = g
      · subst h2; simp
      · have h3 : ¬ g < n + 1 := by omega
        simp [h1, h2, h3]

theorem sparseDecodeLoop_eq (f : Nat → Nat) (n k : Nat) (hk : k ≤ n) :
    sparseDecodeLoop (tab (n + 1) (psum f)) k (List.replicate (psum f n) 0) =
      some (decoded f k ++ List.replicate (psum f n - psum f k) 0) := by
  induction k with
  | zero => simp [sparseDecodeLoop, decoded, psum]
  | succ k ih =>
    unfold sparseDecodeLoop at *
    rw [List.range_succ, List.foldlM_append, ih (by omega)]
    have h1 : k < n + 1 := by omega
    have h2 : k + 1 < n + 1 := by omega
    have hm : psum f (k + 1) ≤ psum f n := psum_mono f (by omega)
    have hs : psum f (k + 1) = psum f k + f k := rfl
    have hlen := decoded_length f k
    have hb : psum f (k + 1) ≤ (decoded f k ++ List.replicate (psum f n - psum f k) 0).length := by
      simp [hlen]; omega
    have ha : psum f k ≤ psum f (k + 1) := by omega
    simp only [Option.bind_eq_bind, Option.bind_some, List.foldlM_cons, List.foldlM_nil, sparseDecodeStep,
      tab_getElem?, h1, h2, if_true, fillRange, ha, hb, and_self]
    simp only [Option.pure_def, Option.some.injEq]
    rw [decoded_succ]
    have t : (decoded f k ++ List.replicate (psum f n - psum f k) 0).take (psum f k) = decoded f k := by
      rw [List.take_append_of_le_length (by omega), List.take_of_length_le (by omega)]
    have d : (decoded f k ++ List.replicate (psum f n - psum f k) 0).drop (psum f (k + 1)) =
        List.replicate (psum f n - psum f (k + 1)) 0 := by
      rw [List.drop_append, List.drop_of_length_le (by omega)]
      simp [hlen]; omega
    rw [t, d]
    have : psum f (k + 1) - psum f k = f k := by omega
    rw [this]

theorem sparseDecode_eq (f : Nat → Nat) (n : Nat) :
    sparseDecode (tab (n + 1) (psum f)) = some (decoded f n) := by
  unfold sparseDecode
  have : (tab (n + 1) (psum f)).getLast? = some (psum f n) := by simp [tab_succ']
  rw [this]
  simp only [Option.bind_eq_bind, Option.bind_some, tab_length, Nat.add_sub_cancel]
  rw [sparseDecodeLoop_eq f n n (Nat.le_refl _)]
  simp

theorem decoded_of_sorted (d : List Nat) (n : Nat) (hs : d.Pairwise (· ≤ ·)) (h : ∀ b ∈ d, b < n) :
    decoded (fun g => d.count g) n = d := by
  apply List.Perm.eq_of_pairwise (le := (· ≤ ·)) (fun a b _ _ hab hba => Nat.le_antisymm hab hba)
    (decoded_sorted _ n) hs
  rw [List.perm_iff_count]
  intro g
  rw [decoded_count]
  by_cases hg : g < n
  · simp [hg]
  · simp only [hg, if_false]
    rw [eq_comm, List.count_eq_zero]
    exact fun hm => hg (h g hm)

/-! ## Every monotone vector starting with zero is a prefix-sum vector -/

theorem indptr_eq_psum (p : List Nat) (n : Nat) (hl : p.length = n + 1) (h0 : p[0]? = some 0)
    (hs : p.Pairwise (· ≤ ·)) : ∃ f, p = tab (n + 1) (psum f) := by
  refine ⟨fun g => p.getD (g + 1) 0 - p.getD g 0, eq_tab_of_getElem? hl ?_⟩
  intro i hi
  have hget : ∀ j, j < n + 1 → p[j]? = some (p.getD j 0) := by
    intro j hj
    rw [List.getD_eq_getElem?_getD, List.getElem?_eq_getElem (by omega)]
    simp
  induction i with
  | zero => simpa [psum] using h0
  | succ i ih =>
    have h1 := ih (by omega)
    have h2 := hget i (by omega)
    have h3 := hget (i + 1) (by omega)
    rw [h2] at h1
    have hp : p.getD i 0 = psum _ i := Option.some.inj h1
    rw [h3]
    have hle : p.getD i 0 ≤ p.getD (i + 1) 0 := by
      have hp1 : i < p.length := by omega
      have hp2 : i + 1 < p.length := by omega
      have := (List.pairwise_iff_getElem.mp hs) i (i + 1) hp1 hp2 (by omega)
      simpa [List.getD_eq_getElem?_getD, hp1, hp2] using this
    simp only [psum]
    rw [← hp]
    congr 1
    omega

end PGM.Index
