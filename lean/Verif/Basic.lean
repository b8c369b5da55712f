/-!
# Shared vocabulary of the model

Small pieces used by several areas: bounds-checked vector writes (`std::vector::operator[]` out of range is
undefined behaviour, modelled by `none`), tabulated vectors and prefix sums.
-/

namespace PGM

/-- Write `l[i] = a` on a `std::vector`; out of range is undefined behaviour and gives `none`.
Models the use of `std::vector::operator[]` as an lvalue throughout the code base. -/
def setAt? {α : Type _} (l : List α) (i : Nat) (a : α) : Option (List α) :=
  if i < l.length then some (l.set i a) else none

/-- A vector of length `n` given by its entries. Specification device only. -/
def tab {α : Type _} (n : Nat) (f : Nat → α) : List α := (List.range n).map f

/-- Prefix sum `f 0 + ... + f (n-1)`. Specification device only. -/
def psum (f : Nat → Nat) : Nat → Nat
  | 0 => 0
  | n + 1 => psum f n + f n

/-- Point update of a function. Specification device only. -/
def upd {α : Type _} (f : Nat → α) (i : Nat) (a : α) : Nat → α := fun j => if j = i then a else f j

section
variable {α : Type _}

@[simp] theorem tab_length (n : Nat) (f : Nat → α) : (tab n f).length = n := by simp [tab]

@[simp] theorem tab_getElem? (n : Nat) (f : Nat → α) (i : Nat) :
    (tab n f)[i]? = if i < n then some (f i) else none := by
  unfold tab
  by_cases h : i < n
  · simp [h]
  · simp [h]

@[simp] theorem tab_getElem (n : Nat) (f : Nat → α) (i : Nat) (h : i < (tab n f).length) :
    (tab n f)[i] = f i := by
  simp [tab]

theorem tab_congr {n : Nat} {f g : Nat → α} (h : ∀ i, i < n → f i = g i) : tab n f = tab n g := by
  unfold tab
  apply List.map_congr_left
  intro i hi
  exact h i (List.mem_range.mp hi)

theorem tab_set (n : Nat) (f : Nat → α) (i : Nat) (a : α) : (tab n f).set i a = tab n (upd f i a) := by
  apply List.ext_getElem?
  intro j
  rw [List.getElem?_set]
  simp [upd]
  by_cases hij : i = j
  · subst hij; by_cases h : i < n <;> simp [h]
  · have : ¬ j = i := fun h => hij h.symm
    simp [hij, this]

theorem setAt?_tab (n : Nat) (f : Nat → α) (i : Nat) (a : α) (h : i < n) :
    setAt? (tab n f) i a = some (tab n (upd f i a)) := by
  simp [setAt?, h, tab_set]

theorem replicate_eq_tab (n : Nat) (a : α) : List.replicate n a = tab n (fun _ => a) := by
  apply List.ext_getElem?
  intro j
  simp [List.getElem?_replicate]

theorem eq_tab_of_getElem? {l : List α} {n : Nat} {f : Nat → α} (hl : l.length = n)
    (h : ∀ i, i < n → l[i]? = some (f i)) : l = tab n f := by
  apply List.ext_getElem?
  intro i
  by_cases hi : i < n
  · simp [h i hi, hi]
  · simp [hi]; omega

theorem tab_succ (n : Nat) (f : Nat → α) : tab (n + 1) f = f 0 :: tab n (fun i => f (i + 1)) := by
  apply List.ext_getElem?
  intro i
  cases i <;> simp

theorem tab_succ' (n : Nat) (f : Nat → α) : tab (n + 1) f = tab n f ++ [f n] := by
  simp [tab, List.range_succ]

end

@[simp] theorem upd_self {α} (f : Nat → α) (i : Nat) (a : α) : upd f i a i = a := by simp [upd]
theorem upd_ne {α} (f : Nat → α) {i j : Nat} (a : α) (h : j ≠ i) : upd f i a j = f j := by simp [upd, h]

theorem psum_mono (f : Nat → Nat) {a b : Nat} (h : a ≤ b) : psum f a ≤ psum f b := by
  induction h with
  | refl => exact Nat.le_refl _
  | step _ ih => exact Nat.le_trans ih (by simp [psum])

theorem psum_congr {f g : Nat → Nat} {n : Nat} (h : ∀ i, i < n → f i = g i) : psum f n = psum g n := by
  induction n with
  | zero => rfl
  | succ n ih => simp [psum, ih (fun i hi => h i (by omega)), h n (by omega)]

theorem psum_add (f g : Nat → Nat) (n : Nat) : psum (fun i => f i + g i) n = psum f n + psum g n := by
  induction n with
  | zero => rfl
  | succ n ih => simp [psum, ih]; omega

theorem psum_zero (n : Nat) : psum (fun _ => 0) n = 0 := by
  induction n with
  | zero => rfl
  | succ n ih => simp [psum, ih]

theorem psum_single (b n : Nat) : psum (fun i => if i = b then 1 else 0) n = if b < n then 1 else 0 := by
  induction n with
  | zero => simp [psum]
  | succ n ih =>
    simp only [psum, ih]
    by_cases h1 : b < n
    · simp [h1, Nat.ne_of_gt h1, Nat.lt_succ_of_lt h1]
    · by_cases h2 : n = b
      · subst h2; simp
      · have : ¬ b < n + 1 := by omega
        simp [h1, h2, this]

/-- The position of an offset in a partition into blocks of sizes `f 0, f 1, ...` is unique. -/
theorem psum_block_unique (f : Nat → Nat) {a b k : Nat} (ha : psum f a ≤ k) (ha' : k < psum f (a + 1))
    (hb : psum f b ≤ k) (hb' : k < psum f (b + 1)) : a = b := by
  rcases Nat.lt_trichotomy a b with h | h | h
  · have := psum_mono f (a := a + 1) (b := b) (by omega); omega
  · exact h
  · have := psum_mono f (a := b + 1) (b := a) (by omega); omega

theorem psum_block_exists (f : Nat → Nat) {n k : Nat} (h : k < psum f n) :
    ∃ b, b < n ∧ psum f b ≤ k ∧ k < psum f (b + 1) := by
  induction n with
  | zero => simp [psum] at h
  | succ n ih =>
    by_cases hk : k < psum f n
    · obtain ⟨b, hb, h1, h2⟩ := ih hk
      exact ⟨b, by omega, h1, h2⟩
    · exact ⟨n, by omega, by omega, h⟩

end PGM
