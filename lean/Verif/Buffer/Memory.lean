import Verif.Buffer.Layout

/-! # Copying in memory -/

namespace PGM.Buffer

theorem accessible_iff {m : Mem} {a : Int} {n al : Nat} :
    accessible m a n al = true ↔ (al : Int) ∣ a ∧ ∀ x, a ≤ x → x < a + n → m.valid x = true := by
  unfold accessible
  simp only [Bool.and_eq_true, decide_eq_true_eq, List.all_eq_true, List.mem_range]
  constructor
  · rintro ⟨h1, h2⟩
    refine ⟨Int.dvd_of_emod_eq_zero h1, fun x hx hx' => ?_⟩
    have := h2 (x - a).toNat (by omega)
    rwa [Int.toNat_of_nonneg (by omega), add_sub_cancel] at this
  · rintro ⟨h1, h2⟩
    exact ⟨Int.emod_eq_zero_of_dvd h1, fun j hj => h2 _ (by omega) (by omega)⟩

theorem accessible_valid {m m' : Mem} (h : m'.valid = m.valid) (a : Int) (n al : Nat) : accessible m' a n al = accessible m a n al := by
  unfold accessible
  rw [h]

theorem write_in {m : Mem} {a : Int} {n : Nat} {bs : List UInt8} (j : Nat) (hj : j < n) : (write m a n bs).byte (a + j) = bs[j]?.getD 0 := by
  show (if a ≤ a + j ∧ a + (j : Int) < a + n then _ else _) = _
  rw [if_pos ⟨by omega, by omega⟩]
  congr 2
  omega

theorem write_out {m : Mem} {a : Int} {n : Nat} {bs : List UInt8} {x : Int} (hx : ¬ (a ≤ x ∧ x < a + n)) : (write m a n bs).byte x = m.byte x :=
  if_neg hx

theorem bytesAt_get (m : Mem) (a : Int) (n j : Nat) (hj : j < n) : (bytesAt m a n)[j]?.getD 0 = m.byte (a + j) := by
  unfold bytesAt
  simp [hj]

/-- Two ranges of `n` bytes have no address in common. -/
def Apart (n : Nat) (a b : Int) : Prop := a + n ≤ b ∨ b + n ≤ a

theorem Apart.symm {n : Nat} {a b : Int} (h : Apart n a b) : Apart n b a := Or.symm h

theorem copy_eq {t : CType} {f g : Int} {m : Mem} (hf : accessible m f t.size t.align = true) (hg : accessible m g t.size t.align = true) :
    copy t f g m = some (write m g t.size (bytesAt m f t.size)) := by
  unfold copy load store
  rw [if_pos hf]
  show (if accessible m g t.size t.align = true then _ else _) = _
  rw [if_pos hg]

/-- Copying several values one after the other. -/
theorem copy_all (t : CType) (f g : Nat → Int) (n : Nat) (m : Mem) (hf : ∀ k, k < n → accessible m (f k) t.size t.align = true)
    (hg : ∀ k, k < n → accessible m (g k) t.size t.align = true) (hfg : ∀ k k', k < n → k' < n → Apart t.size (f k) (g k'))
    (hgg : ∀ k k', k < k' → k' < n → Apart t.size (g k) (g k')) :
    ∃ m', (List.range n).foldlM (fun m k => copy t (f k) (g k) m) m = some m' ∧ m'.valid = m.valid ∧
      (∀ k, k < n → ∀ j, j < t.size → m'.byte (g k + (j : Nat)) = m.byte (f k + (j : Nat))) ∧
      ∀ x, (∀ k, k < n → ¬ (g k ≤ x ∧ x < g k + t.size)) → m'.byte x = m.byte x := by
  induction n with
  | zero => exact ⟨m, rfl, rfl, fun k hk => by omega, fun x _ => rfl⟩
  | succ n ih =>
    obtain ⟨m1, h1, h2, h3, h4⟩ := ih (fun k hk => hf k (by omega)) (fun k hk => hg k (by omega)) (fun k k' h h' => hfg k k' (by omega) (by omega))
      (fun k k' h h' => hgg k k' h (by omega))
    refine ⟨write m1 (g n) t.size (bytesAt m1 (f n) t.size), ?_, h2, fun k hk j hj => ?_, fun x hx => ?_⟩
    · rw [List.range_succ, List.foldlM_append, h1]
      show (copy t (f n) (g n) m1).bind some = _
      rw [copy_eq (by rw [accessible_valid h2]; exact hf n (by omega)) (by rw [accessible_valid h2]; exact hg n (by omega))]
      rfl
    · rcases Nat.lt_succ_iff_lt_or_eq.mp hk with hk | rfl
      · rw [write_out, h3 k hk j hj]
        rcases hgg k n hk (by omega) with h | h <;> omega
      · rw [write_in j hj, bytesAt_get _ _ _ _ hj]
        apply h4
        intro k' hk'
        rcases hfg k k' (by omega) (by omega) with h | h <;> omega
    · rw [write_out (hx n (by omega))]
      exact h4 x fun k hk => hx k (by omega)

/-! ## Default values -/

theorem nanBytes_length (t : CType) : (nanBytes t).length = t.size := by cases t <;> rfl

theorem nanBytes_isNan (t : CType) : isNan t (nanBytes t) = true := by cases t <;> decide

theorem isNan_bytes {t : CType} {m : Mem} {a : Int} (h : ∀ j, j < t.size → m.byte (a + (j : Nat)) = (nanBytes t)[j]?.getD 0) :
    isNan t (bytesAt m a t.size) = true := by
  have : bytesAt m a t.size = nanBytes t := by
    apply List.ext_getElem?
    intro j
    by_cases hj : j < t.size
    · have e := h j hj
      have hl : j < (nanBytes t).length := by rw [nanBytes_length]; exact hj
      rw [List.getElem?_eq_getElem hl] at e ⊢
      unfold bytesAt
      simp only [List.getElem?_map, List.getElem?_range hj, Option.map_some, e, Option.getD_some]
    · rw [List.getElem?_eq_none (l := bytesAt m a t.size) (by simp [bytesAt]; omega), List.getElem?_eq_none (by rw [nanBytes_length]; omega)]
  rw [this, nanBytes_isNan]

theorem nan_members (base : Int) (l : List (Member × Nat)) (m : Mem) (hs : l.Pairwise fun x y => x.2 + x.1.2.size ≤ y.2)
    (hacc : ∀ x ∈ l, accessible m (base + x.2) x.1.2.size x.1.2.align = true) :
    ∃ m', l.foldlM (nanMember base) m = some m' ∧ m'.valid = m.valid ∧
      (∀ x ∈ l, ∀ j, j < x.1.2.size → m'.byte (base + x.2 + (j : Nat)) = (nanBytes x.1.2)[j]?.getD 0) ∧
      ∀ z, (∀ x ∈ l, ¬ (base + x.2 ≤ z ∧ z < base + x.2 + x.1.2.size)) → m'.byte z = m.byte z := by
  induction l generalizing m with
  | nil => exact ⟨m, rfl, rfl, fun x hx => absurd hx (by simp), fun z _ => rfl⟩
  | cons y l ih =>
    obtain ⟨hy, hs⟩ := List.pairwise_cons.mp hs
    let m1 := write m (base + y.2) y.1.2.size (nanBytes y.1.2)
    obtain ⟨m', h1, h2, h3, h4⟩ := ih m1 hs fun x hx => (accessible_valid (m := m) (m' := m1) rfl _ _ _).trans (hacc x (by simp [hx]))
    refine ⟨m', ?_, h2, fun x hx j hj => ?_, fun z hz => ?_⟩
    · have : nanMember base m y = some m1 := if_pos (hacc y (by simp))
      rw [List.foldlM_cons, this]
      exact h1
    · rcases List.mem_cons.mp hx with rfl | hx
      · rw [h4 _ fun z hz => by have := hy z hz; omega]
        exact write_in j hj
      · exact h3 x hx j hj
    · rw [h4 z fun x hx => hz x (by simp [hx])]
      exact write_out (hz y (by simp))

theorem nan_element (pad : Int → UInt8) (l : List Member) (base : Int) (m : Mem) (hacc : accessible m base (recordSize l) (recordAlign l) = true) :
    ∃ m', nanElement pad l base m = some m' ∧ m'.valid = m.valid ∧
      (∀ x ∈ place 0 l, ∀ j, j < x.1.2.size → m'.byte (base + x.2 + (j : Nat)) = (nanBytes x.1.2)[j]?.getD 0) ∧
      ∀ z, ¬ (base ≤ z ∧ z < base + recordSize l) → m'.byte z = m.byte z := by
  obtain ⟨hd, hv⟩ := accessible_iff.mp hacc
  have hle := ending_le_size l
  obtain ⟨m', h1, h2, h3, h4⟩ := nan_members base (place 0 l)
    { m with byte := fun x => if base ≤ x ∧ x < base + recordSize l then pad x else m.byte x } (place_sorted 0 l) fun x hx => by
      obtain ⟨g1, g2, g3, g4⟩ := place_bounds hx
      refine accessible_iff.mpr ⟨Int.dvd_add ((Int.natCast_dvd_natCast.mpr (align_dvd_record g4)).trans hd) (Int.natCast_dvd_natCast.mpr g3), fun z hz hz' => ?_⟩
      exact hv z (by omega) (by omega)
  refine ⟨m', ?_, h2, h3, fun z hz => ?_⟩
  · unfold nanElement
    rw [if_pos hacc]
    exact h1
  · rw [h4 z fun x hx => ?_]
    · exact if_neg hz
    · obtain ⟨_, g2, _, _⟩ := place_bounds hx
      omega

theorem set_nan_all (pad : Int → UInt8) (l : List Member) (buf pos : Int) (n : Nat) (m : Mem)
    (hacc : ∀ k, k < n → accessible m (buf + (pos + (k : Nat)) * recordSize l) (recordSize l) (recordAlign l) = true) :
    ∃ m', (List.range n).foldlM (fun m k => nanElement pad l (buf + (pos + (k : Nat)) * recordSize l) m) m = some m' ∧ m'.valid = m.valid ∧
      (∀ k, k < n → ∀ x ∈ place 0 l, ∀ j, j < x.1.2.size →
        m'.byte (buf + (pos + (k : Nat)) * recordSize l + x.2 + (j : Nat)) = (nanBytes x.1.2)[j]?.getD 0) ∧
      ∀ z, (∀ k, k < n → ¬ (buf + (pos + (k : Nat)) * recordSize l ≤ z ∧ z < buf + (pos + (k : Nat)) * recordSize l + recordSize l)) →
        m'.byte z = m.byte z := by
  induction n with
  | zero => exact ⟨m, rfl, rfl, fun k hk => by omega, fun x _ => rfl⟩
  | succ n ih =>
    obtain ⟨m1, h1, h2, h3, h4⟩ := ih fun k hk => hacc k (by omega)
    obtain ⟨m', g1, g2, g3, g4⟩ := nan_element pad l (buf + (pos + (n : Nat)) * recordSize l) m1 (by rw [accessible_valid h2]; exact hacc n (by omega))
    refine ⟨m', ?_, g2.trans h2, fun k hk x hx j hj => ?_, fun z hz => ?_⟩
    · rw [List.range_succ, List.foldlM_append, h1]
      show (nanElement pad l (buf + (pos + (n : Nat)) * recordSize l) m1).bind some = _
      rw [g1]
      rfl
    · rcases Nat.lt_succ_iff_lt_or_eq.mp hk with hk | rfl
      · rw [g4, h3 k hk x hx j hj]
        obtain ⟨_, q, _, _⟩ := place_bounds hx
        have hle := ending_le_size l
        have : (pos + (k : Nat)) * recordSize l + recordSize l ≤ (pos + (n : Nat)) * recordSize l := by
          have : ((k : Int) + 1) * recordSize l ≤ n * recordSize l := mul_le_mul_of_nonneg_right (by omega) (by omega)
          linarith
        omega
      · exact g3 x hx j hj
    · rw [g4 z (hz n (by omega))]
      exact h4 z fun k hk => hz k (by omega)

end PGM.Buffer
