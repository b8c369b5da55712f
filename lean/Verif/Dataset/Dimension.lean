import Mathlib.Algebra.BigOperators.Group.List.Basic

/-!
# Linked batch dimensions (C46)

`P/auxiliary/dataset.hpp` lines 566-576 and 582 (`next_`), `C/model.cpp` lines 266-288. Datasets live in a
heap and are named by their address. A `while` loop over the chain is modelled by the big-step relation of the loop: no result means that the
loop does not end.

Simplification: a dataset is reduced to its batch size and its `next_` pointer; destroyed datasets are not modelled (using a
chain after destroying one of its members is a use after free).
-/

namespace PGM.Dimension

/-- The datasets that exist: `count` addresses `0 .. count-1`, the `next_` pointer and the batch size of each. -/
structure Heap where
  count : Nat
  next : Nat → Option Nat
  batchSize : Nat → Nat

/-- No dataset exists. -/
def Heap.empty : Heap := ⟨0, fun _ => none, fun _ => 0⟩

/-- A new dataset: `next_{}` is null, `P/auxiliary/dataset.hpp` line 582. -/
def Heap.create (h : Heap) (size : Nat) : Heap :=
  { count := h.count + 1,
    next := fun a => if a = h.count then none else h.next a,
    batchSize := fun a => if a = h.count then size else h.batchSize a }

/-- The implicit copy constructor: `next_` is copied. -/
def Heap.copy (h : Heap) (a : Nat) : Heap :=
  { count := h.count + 1,
    next := fun b => if b = h.count then h.next a else h.next b,
    batchSize := fun b => if b = h.count then h.batchSize a else h.batchSize b }

/-- The assignment `next_ = next`, line 574. -/
def Heap.assign (h : Heap) (self : Nat) (n : Option Nat) : Heap :=
  { h with next := fun a => if a = self then n else h.next a }

/-- The loop of `set_next_cartesian_product_dimension`, lines 567-573: from `current` it ends with `true` if it meets
`self` (the exception) and with `false` if it reaches the end of the chain. -/
inductive Scan (h : Heap) (self : Nat) : Option Nat → Bool → Prop
  | done : Scan h self none false
  | hit (c : Nat) (e : self = c) : Scan h self (some c) true
  | step (c : Nat) (r : Bool) (ne : self ≠ c) (rest : Scan h self (h.next c) r) : Scan h self (some c) r

/-- `set_next_cartesian_product_dimension(next)`, lines 566-575; `rejected` is whether `DatasetError` was thrown. -/
inductive SetNext (h : Heap) (self : Nat) (next : Option Nat) : Heap → (rejected : Bool) → Prop
  | ok (s : Scan h self next false) : SetNext h self next (h.assign self next) false
  | error (s : Scan h self next true) : SetNext h self next h true

/-- `get_batch_dimension`, `C/model.cpp` lines 266-275: from a dataset pointer and the current count. -/
inductive BatchDimension (h : Heap) : Option Nat → Nat → Nat → Prop
  | done (d : Nat) : BatchDimension h none d d
  | step (c d r : Nat) (rest : BatchDimension h (h.next c) (d + 1) r) : BatchDimension h (some c) d r

/-- The loop of `get_stride_size`, lines 281-286. -/
inductive StrideLoop (h : Heap) : Option Nat → Nat → Nat → Prop
  | done (s : Nat) : StrideLoop h none s s
  | step (c s r : Nat) (rest : StrideLoop h (h.next c) (s * h.batchSize c) r) : StrideLoop h (some c) s r

/-- `get_stride_size`, lines 277-288. -/
def StrideSize (h : Heap) (a r : Nat) : Prop := StrideLoop h (h.next a) 1 r

/-- The histories of a program that uses datasets. -/
inductive Reachable : Heap → Prop
  | empty : Reachable Heap.empty
  | create (h : Heap) (size : Nat) (r : Reachable h) : Reachable (h.create size)
  | copy (h : Heap) (a : Nat) (r : Reachable h) (ha : a < h.count) : Reachable (h.copy a)
  | setNext (h h' : Heap) (self : Nat) (n : Option Nat) (rej : Bool) (r : Reachable h) (hs : self < h.count)
      (hn : ∀ a, n = some a → a < h.count) (s : SetNext h self n h' rej) : Reachable h'

/-! ## Specification -/

/-- The dataset `b` is met after `k` steps along the chain from `a`. -/
def Follows (h : Heap) (a : Nat) : Nat → Nat → Prop
  | 0, b => a = b
  | k + 1, b => ∃ c, h.next a = some c ∧ Follows h c k b

/-- `l` is the complete list of datasets from the pointer `p`. -/
inductive Chain (h : Heap) : Option Nat → List Nat → Prop
  | nil : Chain h none []
  | cons (a : Nat) (l : List Nat) (rest : Chain h (h.next a) l) : Chain h (some a) (a :: l)

/-! ## Lemmas -/

theorem follows_next {h : Heap} {a : Nat} {l : List Nat} (hc : Chain h (some a) l) :
    ∀ k b, Follows h a k b ↔ l[k]? = some b := by
  generalize hp : some a = p at hc
  induction hc generalizing a with
  | nil => cases hp
  | cons a' l rest ih =>
    cases hp
    intro k b
    cases k with
    | zero => simp [Follows]
    | succ k =>
      simp only [Follows, List.getElem?_cons_succ]
      cases hn : h.next a' with
      | none => rw [hn] at rest; cases rest; simp
      | some c =>
        rw [hn] at ih
        constructor
        · rintro ⟨c', h1, h2⟩; cases h1; exact (ih rfl k b).mp h2
        · intro h2; exact ⟨c, rfl, (ih rfl k b).mpr h2⟩

theorem chain_mem {h : Heap} {p : Option Nat} {l : List Nat} (hc : Chain h p l) (self : Nat) :
    (∃ r, Scan h self p r) ∧ ∀ r, Scan h self p r → (r = true ↔ self ∈ l) := by
  induction hc with
  | nil =>
    refine ⟨⟨false, .done⟩, ?_⟩
    intro r s; cases s; simp
  | cons a l rest ih =>
    by_cases he : self = a
    · refine ⟨⟨true, .hit a he⟩, ?_⟩
      intro r s
      cases s with
      | hit _ e => simp [he]
      | step _ _ ne _ => exact absurd he ne
    · obtain ⟨⟨r, s⟩, h2⟩ := ih
      refine ⟨⟨r, .step a r he s⟩, ?_⟩
      intro r' s'
      cases s' with
      | hit _ e => exact absurd e he
      | step _ _ _ s'' => simp [h2 r' s'', he]

theorem chain_assign {h : Heap} {p : Option Nat} {l : List Nat} (hc : Chain h p l) (self : Nat) (n : Option Nat)
    (hn : self ∉ l) : Chain (h.assign self n) p l := by
  induction hc with
  | nil => exact .nil
  | cons a l rest ih =>
    simp only [List.mem_cons, not_or] at hn
    refine .cons a l ?_
    have : (h.assign self n).next a = h.next a := by
      simp only [Heap.assign]; rw [if_neg (fun e => hn.1 e.symm)]
    rw [this]
    exact ih hn.2

/-- Linking to a chain that does not contain `self` keeps all chains finite. -/
theorem chain_after {h : Heap} {self : Nat} {n : Option Nat} {ln : List Nat} (hn : Chain h n ln) (hs : self ∉ ln)
    {p : Option Nat} {l : List Nat} (hc : Chain h p l) : ∃ l', Chain (h.assign self n) p l' := by
  induction hc with
  | nil => exact ⟨[], .nil⟩
  | cons a l rest ih =>
    obtain ⟨l', hl'⟩ := ih
    by_cases he : a = self
    · refine ⟨a :: ln, .cons a ln ?_⟩
      have : (h.assign self n).next a = n := by simp [Heap.assign, he]
      rw [this]
      exact chain_assign hn self n hs
    · refine ⟨a :: l', .cons a l' ?_⟩
      have : (h.assign self n).next a = h.next a := by simp [Heap.assign, he]
      rw [this]
      exact hl'

/-- Pointers stay inside the heap and all chains are finite. -/
structure Good (h : Heap) : Prop where
  bound : ∀ a c, h.next a = some c → c < h.count
  finite : ∀ p, ∃ l, Chain h p l

theorem chain_lt {h : Heap} (hb : ∀ a c, h.next a = some c → c < h.count) {p : Option Nat} {l : List Nat}
    (hc : Chain h p l) (hp : ∀ a, p = some a → a < h.count) : ∀ a ∈ l, a < h.count := by
  induction hc with
  | nil => simp
  | cons a l rest ih =>
    intro b hm
    rcases List.mem_cons.mp hm with rfl | hm
    · exact hp _ rfl
    · exact ih (fun c hc => hb a c hc) b hm

theorem chain_extend {h h' : Heap} (he : ∀ a, a < h.count → h'.next a = h.next a)
    {p : Option Nat} {l : List Nat} (hc : Chain h p l) (hl : ∀ a ∈ l, a < h.count) : Chain h' p l := by
  induction hc with
  | nil => exact .nil
  | cons a l rest ih =>
    refine .cons a l ?_
    rw [he a (hl a (by simp))]
    exact ih (fun b hb => hl b (by simp [hb]))

theorem good_add (h h' : Heap) (g : Good h) (fresh : Option Nat) (hf : ∀ a, fresh = some a → a < h.count)
    (hc : h'.count = h.count + 1)
    (hn : ∀ a, h'.next a = if a = h.count then fresh else h.next a) : Good h' := by
  have he : ∀ a, a < h.count → h'.next a = h.next a := by
    intro a ha; rw [hn, if_neg (by omega)]
  have small : ∀ p, (∀ a, p = some a → a < h.count) → ∃ l, Chain h' p l := by
    intro p hp
    obtain ⟨l, hl⟩ := g.finite p
    exact ⟨l, chain_extend he hl (chain_lt g.bound hl hp)⟩
  refine ⟨?_, ?_⟩
  · intro a c hac
    rw [hn] at hac
    rw [hc]
    split at hac
    · have := hf c hac; omega
    · have := g.bound a c hac; omega
  · intro p
    cases p with
    | none => exact ⟨[], .nil⟩
    | some a =>
      have : ∃ l, Chain h' (h'.next a) l := by
        apply small
        intro c hac
        rw [hn] at hac
        split at hac
        · exact hf c hac
        · exact g.bound a c hac
      obtain ⟨l, hl⟩ := this
      exact ⟨a :: l, .cons a l hl⟩

theorem good_reachable {h : Heap} (hr : Reachable h) : Good h := by
  induction hr with
  | empty =>
    refine ⟨by simp [Heap.empty], ?_⟩
    intro p
    cases p with
    | none => exact ⟨[], .nil⟩
    | some a => exact ⟨[a], .cons a [] .nil⟩
  | create h size _ ih => exact good_add h _ ih none (by simp) rfl (fun _ => rfl)
  | copy h a _ ha ih => exact good_add h _ ih (h.next a) (fun c hc => ih.bound a c hc) rfl (fun _ => rfl)
  | setNext h h' self n rej _ hs hn s ih =>
    cases s with
    | error _ => exact ih
    | ok s =>
      obtain ⟨ln, hln⟩ := ih.finite n
      have hnot : self ∉ ln := by
        intro hm
        have := ((chain_mem hln self).2 false s).mpr hm
        cases this
      refine ⟨?_, ?_⟩
      · intro a c hac
        simp only [Heap.assign] at hac
        split at hac
        · exact hn c hac
        · exact ih.bound a c hac
      · intro p
        obtain ⟨l, hl⟩ := ih.finite p
        exact chain_after hln hnot hl

theorem chain_unique {h : Heap} {p : Option Nat} {l l' : List Nat} (hc : Chain h p l) (hc' : Chain h p l') : l = l' := by
  induction hc generalizing l' with
  | nil => cases hc'; rfl
  | cons a l rest ih => cases hc' with | cons _ l' rest' => rw [ih rest']

/-! ## C46 -/

/-- C46. After any history of creating, copying and linking datasets, no dataset can be reached from itself, and every
chain ends after finitely many steps. -/
theorem never_cyclic (h : Heap) (hr : Reachable h) (a : Nat) :
    (∃ k, ∀ b, ¬ Follows h a k b) ∧ ∀ k, 0 < k → ¬ Follows h a k a := by
  obtain ⟨l, hl⟩ := (good_reachable hr).finite (some a)
  refine ⟨⟨l.length, ?_⟩, ?_⟩
  · intro b hb
    rw [follows_next hl] at hb
    simp at hb
  · intro k hk hf
    rw [follows_next hl] at hf
    -- from position `k` the chain would start again
    have haux : ∀ (l : List Nat) (p : Option Nat), Chain h p l → ∀ (k : Nat) (b : Nat), l[k]? = some b →
        Chain h (some b) (l.drop k) := by
      intro l p hc
      induction hc with
      | nil => intro k b hb; simp at hb
      | cons a l rest ih =>
        intro k b hb
        cases k with
        | zero =>
          simp only [List.getElem?_cons_zero, Option.some.injEq] at hb
          subst hb
          exact .cons a l rest
        | succ k => exact ih k b (by simpa using hb)
    have h2 := chain_unique hl (haux l _ hl k a hf)
    have h3 := congrArg List.length h2
    rw [List.length_drop] at h3
    have hlt : k < l.length := by
      rcases Nat.lt_or_ge k l.length with h | h
      · exact h
      · rw [List.getElem?_eq_none h] at hf; cases hf
    omega

/-- C46. Linking always ends. It is rejected, leaving all datasets as they were, exactly if the dataset itself can be
reached from the proposed next dimension; otherwise exactly its link changes. -/
theorem link_outcome (h : Heap) (hr : Reachable h) (self n : Nat) :
    (∃ h' rej, SetNext h self (some n) h' rej) ∧
      ∀ h' rej, SetNext h self (some n) h' rej →
        (rej = true ↔ ∃ k, Follows h n k self) ∧ (rej = true → h' = h) ∧
          (rej = false → h'.next self = some n ∧ (∀ a, a ≠ self → h'.next a = h.next a) ∧
            h'.batchSize = h.batchSize ∧ h'.count = h.count) := by
  obtain ⟨l, hl⟩ := (good_reachable hr).finite (some n)
  obtain ⟨⟨r, s⟩, hm⟩ := chain_mem hl self
  have hiff : ∀ r, Scan h self (some n) r → (r = true ↔ ∃ k, Follows h n k self) := by
    intro r s
    rw [hm r s, List.mem_iff_getElem?]
    constructor
    · rintro ⟨k, hk⟩; exact ⟨k, (follows_next hl k self).mpr hk⟩
    · rintro ⟨k, hk⟩; exact ⟨k, (follows_next hl k self).mp hk⟩
  refine ⟨?_, ?_⟩
  · cases r with
    | true => exact ⟨h, true, .error s⟩
    | false => exact ⟨_, false, .ok s⟩
  · intro h' rej hs
    cases hs with
    | ok s =>
      refine ⟨hiff false s, by simp, fun _ => ⟨by simp [Heap.assign], ?_, rfl, rfl⟩⟩
      intro a ha
      simp [Heap.assign, ha]
    | error s => exact ⟨hiff true s, fun _ => rfl, by simp⟩

theorem dimension_of_chain {h : Heap} {p : Option Nat} {l : List Nat} (hc : Chain h p l) :
    ∀ d r, BatchDimension h p d r ↔ r = d + l.length := by
  induction hc with
  | nil =>
    intro d r
    constructor
    · intro b; cases b; simp
    · intro e; simp at e; subst e; exact .done _
  | cons a l rest ih =>
    intro d r
    constructor
    · intro b
      cases b with
      | step _ _ _ b =>
        have := (ih (d + 1) r).mp b
        simp; omega
    · intro e
      refine .step a d r ((ih (d + 1) r).mpr ?_)
      simp at e; omega

theorem stride_of_chain {h : Heap} {p : Option Nat} {l : List Nat} (hc : Chain h p l) :
    ∀ s r, StrideLoop h p s r ↔ r = s * (l.map h.batchSize).prod := by
  induction hc with
  | nil =>
    intro s r
    constructor
    · intro b; cases b; simp
    · intro e; simp at e; subst e; exact .done _
  | cons a l rest ih =>
    intro s r
    constructor
    · intro b
      cases b with
      | step _ _ _ b =>
        have := (ih _ r).mp b
        simp [this, Nat.mul_assoc]
    · intro e
      refine .step a s r ((ih _ r).mpr ?_)
      simp [e, Nat.mul_assoc]

/-- C46. Enumerating the dimensions ends: every dataset has a finite list of dimensions, its number of dimensions is the
length of that list and its stride the product of the batch sizes of the dimensions that follow. -/
theorem dimensions_enumerable (h : Heap) (hr : Reachable h) (a : Nat) :
    ∃ rest : List Nat, (∀ k b, Follows h a k b ↔ (a :: rest)[k]? = some b) ∧
      (∀ d, BatchDimension h (some a) 0 d ↔ d = rest.length + 1) ∧
      (∀ s, StrideSize h a s ↔ s = (rest.map h.batchSize).prod) := by
  obtain ⟨l, hl⟩ := (good_reachable hr).finite (some a)
  cases hl with
  | cons _ rest hrest =>
    refine ⟨rest, ?_, ?_, ?_⟩
    · exact follows_next (.cons a rest hrest)
    · intro d
      rw [dimension_of_chain (.cons a rest hrest)]
      simp
    · intro s
      unfold StrideSize
      rw [stride_of_chain hrest]
      simp

/-! Non-vacuity: three datasets linked 0 → 1 → 2; linking 2 → 0 is rejected. -/

private def three : Heap := ((((Heap.empty.create 2).create 3).create 4).assign 1 (some 2)).assign 0 (some 1)

private theorem three_reachable : Reachable three := by
  have h1 : Reachable (((Heap.empty.create 2).create 3).create 4) := .create _ _ (.create _ _ (.create _ _ .empty))
  have h2 : Reachable ((((Heap.empty.create 2).create 3).create 4).assign 1 (some 2)) :=
    .setNext _ _ 1 (some 2) false h1 (by decide) (by rintro a ⟨⟩; decide) (.ok (.step 2 _ (by decide) .done))
  exact .setNext _ _ 0 (some 1) false h2 (by decide) (by rintro a ⟨⟩; decide)
    (.ok (.step 1 _ (by decide) (.step 2 _ (by decide) .done)))

example : SetNext three 2 (some 0) three true :=
  .error (.step 0 _ (by decide) (.step 1 _ (by decide) (.hit 2 rfl)))

example : BatchDimension three (some 0) 0 3 := .step _ _ _ (.step _ _ _ (.step _ _ _ (.done _)))

example : StrideSize three 0 12 := .step _ _ _ (.step _ _ _ (.done _))

end PGM.Dimension
