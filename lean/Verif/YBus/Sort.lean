import Verif.YBus.Model
import Mathlib.Data.List.Basic
import Mathlib.Data.List.Nodup
import Mathlib.Data.List.Range
import Mathlib.Data.List.Count
import Mathlib.Tactic.SplitIfs

/-!
# The counting sort is a stable sort
-/

namespace PGM.YBus

variable {α : Type}

/-- Number of elements with a key below `i`. -/
def below (key : α → Nat) (xs : List α) (i : Nat) : Nat := xs.countP fun x => decide (key x < i)

/-- Number of elements with key `i`. -/
def equal (key : α → Nat) (xs : List α) (i : Nat) : Nat := xs.countP fun x => decide (key x = i)

theorem below_succ (key : α → Nat) (xs : List α) (i : Nat) : below key xs (i + 1) = below key xs i + equal key xs i := by
  induction xs with
  | nil => rfl
  | cons x xs ih =>
    unfold below equal at *
    simp only [List.countP_cons, decide_eq_true_eq, ih]
    split_ifs <;> omega

theorem below_zero (key : α → Nat) (xs : List α) : below key xs 0 = 0 := by
  simp [below, List.countP_eq_zero]

theorem below_mono (key : α → Nat) (xs : List α) {i j : Nat} (h : i ≤ j) : below key xs i ≤ below key xs j := by
  induction h with
  | refl => exact Nat.le_refl _
  | step _ ih => rw [below_succ]; omega

theorem below_le (key : α → Nat) (xs : List α) (i : Nat) : below key xs i ≤ xs.length := List.countP_le_length

theorem below_all (key : α → Nat) (xs : List α) (n : Nat) (h : ∀ x ∈ xs, key x < n) : below key xs n = xs.length := by
  unfold below
  rw [List.countP_eq_length]
  intro x hx
  simpa using h x hx

theorem counted (key : α → Nat) (xs : List α) (c : Nat → Nat) (i : Nat) :
    (xs.foldl (fun c x => Function.update c (key x) (c (key x) + 1)) c) i = c i + equal key xs i := by
  induction xs generalizing c with
  | nil => rfl
  | cons x xs ih =>
    rw [List.foldl_cons, ih]
    unfold equal
    simp only [List.countP_cons, decide_eq_true_eq, Function.update_apply]
    by_cases h : key x = i
    · subst h; simp; omega
    · have h' : ¬ i = key x := fun e => h e.symm
      simp [h, h']

theorem accumulated (key : α → Nat) (xs : List α) (c : Nat → Nat) (hc : ∀ i, c i = equal key xs i) (m : Nat) (i : Nat) :
    ((List.range' 1 m).foldl (fun c i => Function.update c i (c i + c (i - 1))) c) i =
      if i ≤ m then below key xs (i + 1) else equal key xs i := by
  induction m generalizing i with
  | zero =>
    simp only [List.range'_zero, List.foldl_nil, Nat.le_zero, hc]
    split_ifs with h
    · subst h; rw [below_succ, below_zero]; omega
    · rfl
  | succ m ih =>
    rw [List.range'_1_concat, List.foldl_append, List.foldl_cons, List.foldl_nil, Function.update_apply]
    split_ifs with h1 h2 h2
    · subst h1
      rw [ih, ih, if_neg (by omega), if_pos (by omega), below_succ key xs (1 + m)]
      have : 1 + m - 1 + 1 = 1 + m := by omega
      rw [this]; omega
    · omega
    · rw [ih, if_pos (by omega)]
    · rw [ih, if_neg (by omega)]

theorem filter_length (key : α → Nat) (xs : List α) (i : Nat) :
    (xs.filter fun x => decide (key x = i)).length = equal key xs i := by
  unfold equal; rw [List.countP_eq_length_filter]

/-- The state of the backward loop when the elements `post` at the end have been placed. -/
theorem placed (key : α → Nat) (xs : List α) (n : Nat) (hk : ∀ x ∈ xs, key x < n) (c : Nat → Nat)
    (hc : ∀ i, i < n → c i = below key xs (i + 1)) (pre post : List α) (hx : xs = pre ++ post) :
    let s := post.foldr (fun x s => place key s x) (c, List.replicate xs.length none)
    (∀ i, i < n → s.1 i + equal key post i = below key xs (i + 1)) ∧ s.2.length = xs.length ∧
    ∀ i, i < n → ∀ j, (hj : j < (post.filter fun x => decide (key x = i)).length) →
      s.2[below key xs (i + 1) - equal key post i + j]? = some (some ((post.filter fun x => decide (key x = i))[j])) := by
  induction post generalizing pre with
  | nil =>
    simp only [List.foldr_nil]
    refine ⟨fun i hi => by rw [hc i hi]; rfl, by simp, fun i _ j hj => by simp at hj⟩
  | cons x post ih =>
    obtain ⟨i1, i2, i3⟩ := ih (pre ++ [x]) (by simp [hx])
    simp only [List.foldr_cons]
    set s := post.foldr (fun x s => place key s x) (c, List.replicate xs.length none) with hs
    have hxm : x ∈ xs := by rw [hx]; simp
    have hkx := hk x hxm
    have heq : ∀ i, equal key (x :: post) i = (if key x = i then 1 else 0) + equal key post i := by
      intro i; unfold equal; simp only [List.countP_cons, decide_eq_true_eq]; omega
    have hle : ∀ i, equal key (x :: post) i ≤ equal key xs i := by
      intro i
      unfold equal
      rw [hx, List.countP_append]; omega
    have hpos : s.1 (key x) - 1 = below key xs (key x + 1) - equal key (x :: post) (key x) := by
      have := i1 (key x) hkx
      rw [heq, if_pos rfl]; omega
    have hle' := hle (key x)
    have hb := below_succ key xs (key x)
    have hbl := below_le key xs (key x + 1)
    have h1 := heq (key x)
    rw [if_pos rfl] at h1
    refine ⟨fun i hi => ?_, by simp [place, i2], fun i hi j hj => ?_⟩
    · simp only [place, Function.update_apply]
      have := i1 i hi
      rw [heq]
      by_cases h : i = key x
      · subst h; simp only [if_true]; omega
      · rw [if_neg h, if_neg (fun e => h e.symm)]; omega
    · simp only [place, hpos]
      by_cases h : key x = i
      · subst h
        simp only [List.filter_cons, decide_true, if_true] at hj ⊢
        rcases j with _ | j
        · simp only [Nat.add_zero, List.getElem_cons_zero]
          rw [List.getElem?_set_self (by rw [i2]; omega)]
        · rw [List.getElem?_set_ne (by omega)]
          have hj' : j < (post.filter fun y => decide (key y = key x)).length := by
            simpa using hj
          have := i3 (key x) hkx j hj'
          rw [List.getElem_cons_succ, ← this]
          congr 1
          omega
      · have hne : decide (key x = i) = false := by simp [h]
        simp only [List.filter_cons, hne, Bool.false_eq_true, if_false] at hj ⊢
        rw [heq i, if_neg h, Nat.zero_add]
        have hlen := filter_length key post i
        have hli : equal key post i ≤ equal key xs i := by have := hle i; rw [heq, if_neg h] at this; omega
        have hbi := below_succ key xs i
        rw [List.getElem?_set_ne, i3 i hi j hj]
        rcases Nat.lt_or_gt_of_ne h with h | h
        · have := below_mono key xs (show key x + 1 ≤ i by omega); omega
        · have := below_mono key xs (show i + 1 ≤ key x by omega); omega

/-- A list with the right element in every place. -/
theorem take_blocks (key : α → Nat) (xs : List α) (t : List (Option α)) (ht : t.length = xs.length) (n : Nat)
    (h : ∀ i, i < n → ∀ j, (hj : j < (xs.filter fun x => decide (key x = i)).length) →
      t[below key xs i + j]? = some (some ((xs.filter fun x => decide (key x = i))[j]))) :
    t.take (below key xs n) = ((List.range n).flatMap fun i => xs.filter fun x => decide (key x = i)).map some := by
  induction n with
  | zero => simp [below_zero]
  | succ n ih =>
    rw [List.range_succ, List.flatMap_append, List.map_append, ← ih (fun i hi => h i (by omega)), below_succ, List.take_add]
    congr 1
    simp only [List.flatMap_cons, List.flatMap_nil, List.append_nil]
    have hlen := filter_length key xs n
    have hb := below_succ key xs n
    have hl := below_le key xs (n + 1)
    apply List.ext_getElem
    · simp; omega
    · intro j h1 h2
      rw [List.length_map] at h2
      have := h n (by omega) j h2
      rw [List.getElem?_eq_some_iff] at this
      obtain ⟨_, e⟩ := this
      simp [e]

theorem mapM_some (l : List α) : (l.map some).mapM id = some l := by
  induction l with
  | nil => rfl
  | cons a l ih => simp [List.mapM_cons, ih]

/-- One pass sorts, and keeps the order of elements with equal keys. -/
theorem countingPass_spec (key : α → Nat) (n : Nat) (hn : n ≠ 0) (xs : List α) (hk : ∀ x ∈ xs, key x < n) :
    countingPass key n xs = some ((List.range n).flatMap fun i => xs.filter fun x => decide (key x = i)) := by
  unfold countingPass
  rw [if_pos ⟨hn, hk⟩]
  simp only
  rw [List.foldl_reverse]
  have hcnt : ∀ i, i < n → ((List.range' 1 (n - 1)).foldl (fun c i => Function.update c i (c i + c (i - 1)))
      (xs.foldl (fun c x => Function.update c (key x) (c (key x) + 1)) (fun _ => 0))) i = below key xs (i + 1) := by
    intro i hi
    rw [accumulated key xs _ (fun i => by rw [counted]; simp), if_pos (by omega)]
  obtain ⟨_, p2, p3⟩ := placed key xs n hk _ hcnt [] xs rfl
  have := take_blocks key xs _ p2 n (fun i hi j hj => by
    have := p3 i hi j hj
    rw [← this]
    congr 1
    have := below_succ key xs i
    omega)
  rw [below_all key xs n hk, List.take_of_length_le (by rw [p2])] at this
  rw [this, mapM_some]

/-- All positions of an `n`×`n` matrix, row by row. -/
def positions (n : Nat) : List Pos := (List.range n).flatMap fun r => (List.range n).map fun c => (r, c)

theorem mem_positions {n : Nat} {p : Pos} : p ∈ positions n ↔ p.1 < n ∧ p.2 < n := by
  unfold positions
  rw [List.mem_flatMap]
  constructor
  · rintro ⟨r, hr, h⟩
    rw [List.mem_map] at h
    obtain ⟨c, hc, rfl⟩ := h
    exact ⟨List.mem_range.mp hr, List.mem_range.mp hc⟩
  · rintro ⟨h1, h2⟩
    exact ⟨p.1, List.mem_range.mpr h1, List.mem_map.mpr ⟨p.2, List.mem_range.mpr h2, rfl⟩⟩

/-- Row by row, and in a row column by column. -/
def Before (p q : Pos) : Prop := p.1 < q.1 ∨ (p.1 = q.1 ∧ p.2 < q.2)

theorem positions_sorted (n : Nat) : (positions n).Pairwise Before := by
  unfold positions
  rw [List.pairwise_flatMap]
  constructor
  · intro r _
    rw [List.pairwise_map]
    exact (List.pairwise_lt_range (n := n)).imp fun h => Or.inr ⟨rfl, h⟩
  · refine (List.pairwise_lt_range (n := n)).imp fun h p hp q hq => ?_
    rw [List.mem_map] at hp hq
    obtain ⟨c, _, rfl⟩ := hp
    obtain ⟨d, _, rfl⟩ := hq
    exact Or.inl h

theorem positions_nodup (n : Nat) : (positions n).Nodup := by
  refine (positions_sorted n).imp fun {p q} h e => ?_
  subst e
  rcases h with h | ⟨_, h⟩ <;> omega

/-- The whole sort. -/
theorem countingSort_spec (n : Nat) (hn : n ≠ 0) (xs : List ElemMap) (hk : ∀ x ∈ xs, x.pos.1 < n ∧ x.pos.2 < n) :
    countingSort n xs = some ((positions n).flatMap fun p => xs.filter fun x => decide (x.pos = p)) := by
  unfold countingSort
  rw [countingPass_spec _ n hn xs (fun x hx => (hk x hx).2), Option.bind_some, countingPass_spec _ n hn]
  · congr 1
    unfold positions
    rw [List.flatMap_assoc]
    congr 1
    funext r
    rw [List.filter_flatMap, List.flatMap_map]
    congr 1
    funext c
    rw [List.filter_filter]
    apply List.filter_congr
    intro x _
    rw [Bool.eq_iff_iff]
    simp [Prod.ext_iff]
  · intro x hx
    rw [List.mem_flatMap] at hx
    obtain ⟨_, _, hx⟩ := hx
    exact (hk x (List.mem_filter.mp hx).1).1

end PGM.YBus
