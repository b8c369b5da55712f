import Verif.Lu.Sparse
import Verif.YBus.Props

/-!
# Valid patterns and what the index computations find
-/

namespace PGM.Lu

open PGM.YBus (IsCsr EntryAt)

/-- Position `i` holds row `r`, column `c`. -/
abbrev Pattern.At (p : Pattern) (r c i : Nat) : Prop := EntryAt p.rowIndptr p.colIndices r c i

/-- A pattern that the solver may be used with: compressed rows with increasing columns, the diagonal present, symmetric, and closed under
elimination: an entry `(i, k)` below and `(k, j)` right of the diagonal entry `k` imply the entry `(i, j)`. -/
structure Pattern.Valid (p : Pattern) (N : Nat) (pat : Nat → Nat → Prop) : Prop where
  csr : IsCsr N p.rowIndptr p.colIndices pat
  diagLen : p.diagLu.length = N
  diag : ∀ r, r < N → ∃ i, p.diagLu[r]? = some i ∧ p.At r r i
  range : ∀ r c, r < N → pat r c → c < N
  symm : ∀ r c, r < N → pat r c → pat c r
  closed : ∀ i j k, i < N → j < N → k < i → k < j → pat i k → pat k j → pat i j

variable {p : Pattern} {N : Nat} {pat : Nat → Nat → Prop}

theorem Pattern.Valid.size_eq (h : p.Valid N pat) : p.size = N := by
  unfold Pattern.size
  rw [h.csr.len]
  omega

theorem ptr_mono {ip cols : List Nat} {pat : Nat → Nat → Prop} (I : IsCsr N ip cols pat) :
    ∀ d q v w, ip[q]? = some v → ip[q + d]? = some w → q + d ≤ N → v ≤ w := by
  intro d
  induction d with
  | zero => intro q v w e1 e2 _; rw [Nat.add_zero, e1] at e2; injection e2 with e2; omega
  | succ d ih =>
    intro q v w e1 e2 hle
    obtain ⟨x, y, f1, f2, f3⟩ := I.mono (q + d) (by omega)
    have e2' : ip[q + d + 1]? = some w := e2
    rw [e2'] at f2
    injection f2 with f2
    have := ih q v x e1 f1 (by omega)
    omega

theorem at_unique (h : p.Valid N pat) {r c r' c' i : Nat} (hr : r < N) (hr' : r' < N) (h1 : p.At r c i) (h2 : p.At r' c' i) :
    r = r' ∧ c = c' := by
  obtain ⟨a, z, e1, e2, e3, e4, e5⟩ := h1
  obtain ⟨a', z', e1', e2', e3', e4', e5'⟩ := h2
  have hc : c = c' := by rw [e5] at e5'; injection e5'
  refine ⟨?_, hc⟩
  rcases Nat.lt_trichotomy r r' with hlt | rfl | hlt
  · have := ptr_mono h.csr (r' - (r + 1)) (r + 1) z a' e2 (by rw [← e1']; congr 1; omega) (by omega)
    omega
  · rfl
  · have := ptr_mono h.csr (r - (r' + 1)) (r' + 1) z' a e2' (by rw [← e1]; congr 1; omega) (by omega)
    omega

theorem at_index_unique (h : p.Valid N pat) {r c i j : Nat} (h1 : p.At r c i) (h2 : p.At r c j) : i = j := by
  rcases Nat.lt_trichotomy i j with hlt | rfl | hlt
  · have := h.csr.sorted r c i c j h1 h2 hlt; omega
  · rfl
  · have := h.csr.sorted r c j c i h2 h1 hlt; omega

theorem at_lt_iff (h : p.Valid N pat) {r c c' i j : Nat} (h1 : p.At r c i) (h2 : p.At r c' j) : i < j ↔ c < c' := by
  constructor
  · exact h.csr.sorted r c i c' j h1 h2
  · intro hc
    rcases Nat.lt_trichotomy i j with hlt | rfl | hlt
    · exact hlt
    · have := h1; obtain ⟨_, _, _, _, _, _, e⟩ := h1; obtain ⟨_, _, _, _, _, _, e'⟩ := h2
      rw [e] at e'; injection e' with e'; omega
    · have := h.csr.sorted r c' j c i h2 h1 hlt; omega

theorem at_bounds (h : p.Valid N pat) {r c i : Nat} (h1 : p.At r c i) :
    p.start r ≤ i ∧ i < p.start (r + 1) ∧ p.col i = c ∧ i < p.colIndices.length := by
  obtain ⟨a, z, e1, e2, e3, e4, e5⟩ := h1
  unfold Pattern.start Pattern.col
  rw [e1, e2, e5]
  exact ⟨e3, e4, rfl, (List.getElem?_eq_some_iff.mp e5).1⟩

theorem at_of_bounds (h : p.Valid N pat) {r i : Nat} (hr : r < N) (h1 : p.start r ≤ i) (h2 : i < p.start (r + 1)) :
    p.At r (p.col i) i ∧ pat r (p.col i) := by
  obtain ⟨a, z, e1, e2, e3⟩ := h.csr.mono r hr
  have hz := ptr_mono h.csr (N - (r + 1)) (r + 1) z p.colIndices.length e2 (by rw [← h.csr.last]; congr 1; omega) (by omega)
  unfold Pattern.start at h1 h2
  rw [e1] at h1
  rw [e2] at h2
  simp only [Option.getD_some] at h1 h2
  have hat : p.At r (p.col i) i := by
    refine ⟨a, z, e1, e2, h1, h2, ?_⟩
    unfold Pattern.col
    rw [List.getElem?_eq_getElem (by omega), Option.getD_some]
  exact ⟨hat, (h.csr.pattern r hr _).mp ⟨i, hat⟩⟩

theorem at_exists (h : p.Valid N pat) {r c : Nat} (hr : r < N) (hp : pat r c) : ∃ i, p.At r c i :=
  (h.csr.pattern r hr c).mpr hp

theorem at_pat (h : p.Valid N pat) {r c i : Nat} (hr : r < N) (h1 : p.At r c i) : pat r c := (h.csr.pattern r hr c).mp ⟨i, h1⟩

theorem diag_at (h : p.Valid N pat) {r : Nat} (hr : r < N) : p.At r r (p.diag r) := by
  obtain ⟨i, e, hi⟩ := h.diag r hr
  unfold Pattern.diag
  rw [e]
  exact hi

theorem pat_diag (h : p.Valid N pat) {r : Nat} (hr : r < N) : pat r r := at_pat h hr (diag_at h hr)

/-! ## Columns left and right of the diagonal -/

theorem mem_idxRange {a z i : Nat} : i ∈ idxRange a z ↔ a ≤ i ∧ i < z := by
  unfold idxRange
  rw [List.mem_range'_1]
  omega

theorem idxRange_pairwise (a z : Nat) : (idxRange a z).Pairwise (· < ·) := by
  unfold idxRange
  exact List.pairwise_lt_range'

/-- The columns of a range of positions of a row: increasing, and exactly the entries there. -/
theorem cols_range (h : p.Valid N pat) {r a z : Nat} (hr : r < N) (ha : p.start r ≤ a) (hz : z ≤ p.start (r + 1)) :
    ((idxRange a z).map p.col).Pairwise (· < ·) ∧
      ∀ c, c ∈ (idxRange a z).map p.col ↔ ∃ i, p.At r c i ∧ a ≤ i ∧ i < z := by
  constructor
  · rw [List.pairwise_map]
    refine (idxRange_pairwise a z).imp_of_mem ?_
    intro i j hi hj hij
    rw [mem_idxRange] at hi hj
    exact (at_lt_iff h (at_of_bounds h hr (by omega) (by omega)).1 (at_of_bounds h hr (by omega) (by omega)).1).mp hij
  · intro c
    rw [List.mem_map]
    constructor
    · rintro ⟨i, hi, rfl⟩
      rw [mem_idxRange] at hi
      exact ⟨i, (at_of_bounds h hr (by omega) (by omega)).1, hi⟩
    · rintro ⟨i, hi, h1, h2⟩
      exact ⟨i, mem_idxRange.mpr ⟨h1, h2⟩, (at_bounds h hi).2.2.1⟩

/-- The columns left of the diagonal. -/
def leftCols (p : Pattern) (r : Nat) : List Nat := (idxRange (p.start r) (p.diag r)).map p.col

/-- The columns right of the diagonal. -/
def rightCols (p : Pattern) (r : Nat) : List Nat := (idxRange (p.diag r + 1) (p.start (r + 1))).map p.col

theorem leftCols_spec (h : p.Valid N pat) {r : Nat} (hr : r < N) :
    (leftCols p r).Pairwise (· < ·) ∧ ∀ c, c ∈ leftCols p r ↔ pat r c ∧ c < r := by
  have hd := diag_at h hr
  have hb := at_bounds h hd
  obtain ⟨h1, h2⟩ := cols_range h hr (a := p.start r) (z := p.diag r) le_rfl (by omega)
  refine ⟨h1, fun c => ?_⟩
  unfold leftCols
  rw [h2]
  constructor
  · rintro ⟨i, hi, _, hlt⟩
    exact ⟨at_pat h hr hi, (at_lt_iff h hi hd).mp hlt⟩
  · rintro ⟨hp, hc⟩
    obtain ⟨i, hi⟩ := at_exists h hr hp
    exact ⟨i, hi, (at_bounds h hi).1, (at_lt_iff h hi hd).mpr hc⟩

theorem rightCols_spec (h : p.Valid N pat) {r : Nat} (hr : r < N) :
    (rightCols p r).Pairwise (· < ·) ∧ ∀ c, c ∈ rightCols p r ↔ pat r c ∧ r < c := by
  have hd := diag_at h hr
  have hb := at_bounds h hd
  obtain ⟨h1, h2⟩ := cols_range h hr (a := p.diag r + 1) (z := p.start (r + 1)) (by omega) le_rfl
  refine ⟨h1, fun c => ?_⟩
  unfold rightCols
  rw [h2]
  constructor
  · rintro ⟨i, hi, hlt, _⟩
    exact ⟨at_pat h hr hi, (at_lt_iff h hd hi).mp (by omega)⟩
  · rintro ⟨hp, hc⟩
    obtain ⟨i, hi⟩ := at_exists h hr hp
    have := (at_lt_iff h hd hi).mpr hc
    exact ⟨i, hi, by omega, (at_bounds h hi).2.1⟩

/-! ## Searching an entry -/

theorem lowerBound_eq (f : Nat → Nat) (v first len : Nat) : lowerBound f v first len =
    if len = 0 then first
    else if f (first + len / 2) < v then lowerBound f v (first + len / 2 + 1) (len - len / 2 - 1)
    else lowerBound f v first (len / 2) := by
  rw [lowerBound]

theorem lowerBound_spec (f : Nat → Nat) (v i : Nat) : ∀ (len first : Nat), first ≤ i → i < first + len →
    (∀ a b, first ≤ a → a < b → b < first + len → f a < f b) → f i = v → lowerBound f v first len = i := by
  -- a stronger statement: the target may also be just behind the range
  have key : ∀ (len first : Nat), first ≤ i → i ≤ first + len →
      (∀ a, first ≤ a → a < first + len → (f a < v ↔ a < i)) → lowerBound f v first len = i := by
    intro len
    induction len using Nat.strong_induction_on with
    | _ len ih =>
      intro first h1 h2 h3
      rw [lowerBound_eq]
      split_ifs with h0 hlt
      · omega
      · have hm := (h3 (first + len / 2) (by omega) (by omega)).mp hlt
        exact ih (len - len / 2 - 1) (by omega) _ (by omega) (by omega) (fun a ha hb => h3 a (by omega) (by omega))
      · have hm : ¬ first + len / 2 < i := fun h => hlt ((h3 (first + len / 2) (by omega) (by omega)).mpr h)
        exact ih (len / 2) (by omega) _ h1 (by omega) (fun a ha hb => h3 a (by omega) (by omega))
  intro len first h1 h2 hs hv
  refine key len first h1 (by omega) (fun a ha hb => ?_)
  rw [← hv]
  constructor
  · intro hlt
    by_contra hn
    rcases Nat.lt_or_ge i a with h | h
    · have := hs i a h1 h hb; omega
    · have : a = i := by omega
      subst this; omega
  · intro hlt; exact hs a i ha hlt h2

theorem findEntry_spec (h : p.Valid N pat) {r c i first last : Nat} (hr : r < N) (hi : p.At r c i) (h1 : p.start r ≤ first)
    (h2 : first ≤ i) (h3 : i < last) (h4 : last ≤ p.start (r + 1)) : findEntry p r c first last = .ok i := by
  unfold findEntry
  rw [if_neg (by rw [not_not]; exact ⟨h1, by omega, h4⟩)]
  have hb := at_bounds h hi
  split_ifs with hl h5
  · have : (idxRange first last).find? (fun i => p.col i == c) = some i := by
      rw [List.find?_eq_some_iff_append]
      refine ⟨by simp [hb.2.2.1], ?_⟩
      refine ⟨idxRange first i, idxRange (i + 1) last, ?_, ?_⟩
      · unfold idxRange
        have e1 : last - first = (i - first) + (1 + (last - (i + 1))) := by omega
        rw [e1, ← List.range'_append_1, ← List.range'_append_1]
        have e2 : first + (i - first) = i := by omega
        rw [e2]
        simp
      · intro j hj
        rw [mem_idxRange] at hj
        have hj' := (at_of_bounds h hr (i := j) (by omega) (by omega)).1
        have := (at_lt_iff h hj' hi).mp hj.2
        simp
        omega
    rw [this]
  · have hlb : lowerBound p.col c first (last - first) = i := by
      refine lowerBound_spec p.col c i (last - first) first h2 (by omega) ?_ hb.2.2.1
      intro a b ha hab hbl
      exact (at_lt_iff h (at_of_bounds h hr (by omega) (by omega)).1 (at_of_bounds h hr (by omega) (by omega)).1).mp hab
    simp only [hlb]
    rw [if_pos ⟨h3, hb.2.2.1⟩]

end PGM.Lu
