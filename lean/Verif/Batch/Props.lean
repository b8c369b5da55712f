import Verif.Batch.Model

/-!
# Properties C06 and C07: dispatching a batch

Specification: scenario `s` in isolation is `fresh A s buf`: a new copy of the base adapter performs set-up, calculation
and wind-down for `s` only.
-/

namespace PGM.Batch

variable {σ ο : Type}

/-! ## C06 -/

theorem strideLoop_mem (start stride n : Nat) (hs : 0 < stride) (x : Nat) :
    x ∈ strideLoop start stride n ↔ start ≤ x ∧ x < n ∧ ∃ k, x = start + k * stride := by
  induction h : n - start using Nat.strongRecOn generalizing start with
  | _ m ih =>
    rw [strideLoop]
    by_cases hc : start < n ∧ 0 < stride
    · rw [dif_pos hc, List.mem_cons, ih (n - (start + stride)) (by omega) (start + stride) rfl]
      constructor
      · rintro (rfl | ⟨h1, h2, k, hk⟩)
        · exact ⟨Nat.le_refl _, hc.1, 0, by simp⟩
        · exact ⟨by omega, h2, k + 1, by rw [hk, Nat.succ_mul]; omega⟩
      · rintro ⟨h1, h2, k, hk⟩
        cases k with
        | zero => left; simpa using hk
        | succ k =>
          right
          rw [Nat.succ_mul] at hk
          have : 0 ≤ k * stride := Nat.zero_le _
          exact ⟨by omega, h2, k, by omega⟩
    · rw [dif_neg hc]
      constructor
      · simp
      · rintro ⟨h1, h2, _⟩
        exact absurd ⟨by omega, hs⟩ hc

theorem strideLoop_sorted (start stride n : Nat) : (strideLoop start stride n).Pairwise (· < ·) := by
  induction h : n - start using Nat.strongRecOn generalizing start with
  | _ m ih =>
    rw [strideLoop]
    by_cases hc : start < n ∧ 0 < stride
    · rw [dif_pos hc, List.pairwise_cons]
      refine ⟨?_, ih (n - (start + stride)) (by omega) (start + stride) rfl⟩
      intro x hx
      have := (strideLoop_mem (start + stride) stride n hc.2 x).mp hx
      omega
    · rw [dif_neg hc]; exact List.Pairwise.nil

/-- C06. The number of workers is between one and the number of scenarios. -/
theorem nThreads_bounds (n : Nat) (hn : 0 < n) (threading : Int) (hw : Nat) :
    1 ≤ nThreads n threading hw ∧ nThreads n threading hw ≤ n := by
  unfold nThreads
  split
  · omega
  · split <;> omega

theorem dispatch_eq (n : Nat) (threading : Int) (hw : Nat) :
    dispatch n threading hw =
      (List.range (nThreads n threading hw).toNat).map
        (fun t => strideLoop t (nThreads n threading hw).toNat n) := by
  unfold dispatch
  simp only
  split
  · rename_i h
    rw [h]; rfl
  · rfl

theorem dispatch_length (n : Nat) (threading : Int) (hw : Nat) :
    (dispatch n threading hw).length = (nThreads n threading hw).toNat := by
  rw [dispatch_eq]; simp

theorem dispatch_getElem? (n : Nat) (threading : Int) (hw : Nat) (i : Nat) (l : List Nat)
    (h : (dispatch n threading hw)[i]? = some l) :
    i < (nThreads n threading hw).toNat ∧ l = strideLoop i (nThreads n threading hw).toNat n := by
  rw [dispatch_eq] at h
  by_cases hi : i < (nThreads n threading hw).toNat
  · simp [hi] at h
    exact ⟨hi, h.symm⟩
  · rw [List.getElem?_eq_none (by simp; omega)] at h; cases h

theorem stride_residue (t m n x : Nat) (ht : t < m) : x ∈ strideLoop t m n ↔ x < n ∧ x % m = t := by
  rw [strideLoop_mem t m n (by omega)]
  constructor
  · rintro ⟨_, h2, k, hk⟩
    refine ⟨h2, ?_⟩
    rw [hk, Nat.add_mul_mod_self_right, Nat.mod_eq_of_lt ht]
  · rintro ⟨h1, h2⟩
    refine ⟨?_, h1, x / m, ?_⟩
    · rw [← h2]; exact Nat.mod_le _ _
    · have := Nat.mod_add_div x m
      rw [h2, Nat.mul_comm] at this
      exact this.symm

/-- C06. Each scenario is handed to exactly one worker, exactly once: no worker list has repetitions, and for each
scenario there is one and only one worker whose list contains it; nothing else is handed out. -/
theorem scenarios_partitioned (n : Nat) (hn : 0 < n) (threading : Int) (hw : Nat) :
    (∀ l ∈ dispatch n threading hw, l.Nodup ∧ ∀ s ∈ l, s < n) ∧
    (∀ s, s < n → ∃ i : Nat, (∃ l, (dispatch n threading hw)[i]? = some l ∧ s ∈ l) ∧
      ∀ (j : Nat) l, (dispatch n threading hw)[j]? = some l → s ∈ l → j = i) := by
  have hb := nThreads_bounds n hn threading hw
  have hm : 0 < (nThreads n threading hw).toNat := by omega
  constructor
  · intro l hl
    obtain ⟨i, hi⟩ := List.getElem?_of_mem hl
    obtain ⟨hi', rfl⟩ := dispatch_getElem? n threading hw i l hi
    refine ⟨?_, ?_⟩
    · exact (strideLoop_sorted _ _ _).imp (fun h => Nat.ne_of_lt h)
    · intro s hs
      exact ((stride_residue _ _ _ _ hi').mp hs).1
  · intro s hs
    have hr : s % (nThreads n threading hw).toNat < (nThreads n threading hw).toNat := Nat.mod_lt _ hm
    refine ⟨s % (nThreads n threading hw).toNat, ⟨_, ?_, (stride_residue _ _ _ _ hr).mpr ⟨hs, rfl⟩⟩, ?_⟩
    · rw [dispatch_eq]; simp [hr]
    · intro j l hj hsl
      obtain ⟨hj', rfl⟩ := dispatch_getElem? n threading hw j l hj
      exact ((stride_residue _ _ _ _ hj').mp hsl).2.symm

theorem nodup_flatten (L : List (List Nat)) :
    L.flatten.Nodup ↔ (∀ l ∈ L, l.Nodup) ∧ L.Pairwise (fun a b => ∀ x, x ∈ a → x ∉ b) := by
  unfold List.Nodup
  rw [List.pairwise_flatten]
  apply and_congr Iff.rfl
  constructor <;> intro h <;> refine h.imp ?_
  · intro a b hab x hx hxb
    exact hab x hx x hxb rfl
  · intro a b hab x hx y hy hxy
    subst hxy
    exact hab x hx hy

/-- C06. As one multiset: the concatenation of the workers' lists is a permutation of `0 .. n-1`. -/
theorem scenarios_exactly_once (n : Nat) (hn : 0 < n) (threading : Int) (hw : Nat) :
    List.Perm (dispatch n threading hw).flatten (List.range n) := by
  have hp := scenarios_partitioned n hn threading hw
  apply (List.perm_ext_iff_of_nodup ?_ List.nodup_range).mpr
  · intro s
    rw [List.mem_range, List.mem_flatten]
    constructor
    · rintro ⟨l, hl, hs⟩
      exact (hp.1 l hl).2 s hs
    · intro hs
      obtain ⟨i, ⟨l, hl, hsl⟩, _⟩ := hp.2 s hs
      exact ⟨l, List.mem_of_getElem? hl, hsl⟩
  · rw [nodup_flatten]
    refine ⟨fun l hl => (hp.1 l hl).1, ?_⟩
    rw [List.pairwise_iff_getElem]
    intro i j hi hj hij s hsi hsj
    have hlt := (hp.1 _ (List.getElem_mem hi)).2 s hsi
    obtain ⟨k, _, huniq⟩ := hp.2 s hlt
    have h1 := huniq i _ (List.getElem?_eq_getElem hi) hsi
    have h2 := huniq j _ (List.getElem?_eq_getElem hj) hsj
    omega

theorem strideLoop_lt {start stride n : Nat} (h : start < n) (hs : 0 < stride) :
    strideLoop start stride n = start :: strideLoop (start + stride) stride n := by
  conv => lhs; rw [strideLoop]
  rw [dif_pos ⟨h, hs⟩]

theorem strideLoop_ge {start stride n : Nat} (h : n ≤ start) : strideLoop start stride n = [] := by
  rw [strideLoop, dif_neg (by omega)]

example : dispatch 7 3 1 = [[0, 3, 6], [1, 4], [2, 5]] := by
  simp [dispatch, nThreads, strideLoop_lt, strideLoop_ge, List.range, List.range.loop, show min (3 : Int) 7 = 3 from rfl]
example : dispatch 3 (-1) 8 = [[0, 1, 2]] := by simp [dispatch, nThreads, strideLoop_lt, strideLoop_ge]
example : dispatch 3 0 8 = [[0], [1], [2]] := by
  simp [dispatch, nThreads, strideLoop_lt, strideLoop_ge, List.range, List.range.loop, show min (8 : Int) 3 = 3 from rfl]

/-! ## C07 -/

/-- Specification: the text a failing scenario has to be reported with. -/
def text : Exn → String
  | .std w => w
  | .other => "unknown exception"

theorem message_eq (e : Exn) : e.message = text e := by cases e <;> rfl

/-- Outcome of scenario `s` calculated in isolation on a fresh copy of the base adapter: final content of the output
slot and the message (empty if nothing was thrown). -/
def fresh (A : Adapter σ ο) (buf : Nat → ο) (s : Nat) : ο × String :=
  match A.setup s A.base with
  | (_, some e) => (buf s, text e)
  | (a, none) =>
    match A.run s a with
    | (_, o, some e) => (o.getD (buf s), text e)
    | (b, o, none) =>
      match A.winddown b with
      | (_, some e) => (o.getD (buf s), text e)
      | (_, none) => (o.getD (buf s), "")

/-- What the dispatcher relies on: a state that went through set-up, calculation and wind-down behaves like the base
state (`R`), and a state in which an operation threw is brought back to such a state by a wind-down that does not throw
(`Q`). Discharged for the component updates in `Verif.Update`. -/
structure Faithful (A : Adapter σ ο) (R Q : σ → Prop) : Prop where
  base : R A.base
  setup_eq : ∀ s a, R a → (A.setup s a).2 = (A.setup s A.base).2
  setup_fail : ∀ s a, R a → (A.setup s a).2 ≠ none → Q (A.setup s a).1
  run_eq : ∀ s a, R a → (A.setup s a).2 = none →
    (A.run s (A.setup s a).1).2 = (A.run s (A.setup s A.base).1).2
  run_fail : ∀ s a, R a → (A.setup s a).2 = none → (A.run s (A.setup s a).1).2.2 ≠ none →
    Q (A.run s (A.setup s a).1).1
  wd_eq : ∀ s a, R a → (A.setup s a).2 = none → (A.run s (A.setup s a).1).2.2 = none →
    (A.winddown (A.run s (A.setup s a).1).1).2 = (A.winddown (A.run s (A.setup s A.base).1).1).2
  wd_ok : ∀ s a, R a → (A.setup s a).2 = none → (A.run s (A.setup s a).1).2.2 = none →
    (A.winddown (A.run s (A.setup s a).1).1).2 = none → R (A.winddown (A.run s (A.setup s a).1).1).1
  wd_fail : ∀ s a, R a → (A.setup s a).2 = none → (A.run s (A.setup s a).1).2.2 = none →
    (A.winddown (A.run s (A.setup s a).1).1).2 ≠ none → Q (A.winddown (A.run s (A.setup s a).1).1).1
  recover : ∀ a, Q a → (A.winddown a).2 = none → R (A.winddown a).1

/-- Slot `s` holds its final content. -/
def Done (A : Adapter σ ο) (buf : Nat → ο) (sh : Shared ο) (s : Nat) : Prop :=
  sh.out s = (fresh A buf s).1 ∧ sh.msg s = (fresh A buf s).2

/-- Slot `s` is untouched. -/
def Untouched (buf : Nat → ο) (sh : Shared ο) (s : Nat) : Prop := sh.out s = buf s ∧ sh.msg s = ""

/-- Invariant of a worker that started with the scenario list `L`. -/
def WInv (A : Adapter σ ο) (R Q : σ → Prop) (buf : Nat → ο) (L : List Nat) (w : Worker σ) (sh : Shared ο) : Prop :=
  match w.phase with
  | .idle => ∃ d, L = d ++ w.todo ∧ R w.adapter ∧ (∀ s ∈ d, Done A buf sh s) ∧ ∀ s ∈ w.todo, Untouched buf sh s
  | .ready c => ∃ d, L = d ++ c :: w.todo ∧
      (∃ a, R a ∧ (A.setup c a).2 = none ∧ w.adapter = (A.setup c a).1) ∧
      (∀ s ∈ d, Done A buf sh s) ∧ Untouched buf sh c ∧ ∀ s ∈ w.todo, Untouched buf sh s
  | .ran c => ∃ d, L = d ++ c :: w.todo ∧
      (∃ a, R a ∧ (A.setup c a).2 = none ∧ (A.run c (A.setup c a).1).2.2 = none ∧
        w.adapter = (A.run c (A.setup c a).1).1 ∧
        sh.out c = (A.run c (A.setup c a).1).2.1.getD (buf c)) ∧
      (∀ s ∈ d, Done A buf sh s) ∧ sh.msg c = "" ∧ ∀ s ∈ w.todo, Untouched buf sh s
  | .failed c => ∃ d, L = d ++ c :: w.todo ∧ Q w.adapter ∧
      (∀ s ∈ d, Done A buf sh s) ∧ Done A buf sh c ∧ ∀ s ∈ w.todo, Untouched buf sh s

theorem setOut_out (sh : Shared ο) (s : Nat) (o : Option ο) (i : Nat) :
    (sh.setOut s o).out i = if i = s then o.getD (sh.out i) else sh.out i := by
  cases o with
  | none => simp [Shared.setOut]
  | some v => simp [Shared.setOut]

theorem setOut_msg (sh : Shared ο) (s : Nat) (o : Option ο) (i : Nat) : (sh.setOut s o).msg i = sh.msg i := by
  cases o <;> rfl

theorem setMsg_out (sh : Shared ο) (s : Nat) (m : String) (i : Nat) : (sh.setMsg s m).out i = sh.out i := rfl
theorem setMsg_msg (sh : Shared ο) (s : Nat) (m : String) (i : Nat) :
    (sh.setMsg s m).msg i = if i = s then m else sh.msg i := rfl

/-- A step of a worker only touches slots of its own scenario list. -/
theorem workerStep_frame (A : Adapter σ ο) (R Q : σ → Prop) (buf : Nat → ο) (L : List Nat) (w : Worker σ)
    (sh : Shared ο) (h : WInv A R Q buf L w sh) (i : Nat) (hi : i ∉ L) :
    (workerStep A w sh).2.out i = sh.out i ∧ (workerStep A w sh).2.msg i = sh.msg i := by
  obtain ⟨a, todo, phase⟩ := w
  unfold workerStep
  cases phase with
  | idle =>
    cases todo with
    | nil => exact ⟨rfl, rfl⟩
    | cons s rest =>
      obtain ⟨d, hL, _⟩ := h
      have hne : i ≠ s := by rintro rfl; apply hi; rw [hL]; simp
      simp only
      split
      · exact ⟨rfl, rfl⟩
      · simp [setMsg_out, setMsg_msg, hne]
  | ready s =>
    obtain ⟨d, hL, _⟩ := h
    have hne : i ≠ s := by rintro rfl; apply hi; rw [hL]; simp
    simp only
    split
    · simp [setOut_out, setOut_msg, hne]
    · simp [setMsg_out, setMsg_msg, setOut_out, setOut_msg, hne]
  | ran s =>
    obtain ⟨d, hL, _⟩ := h
    have hne : i ≠ s := by rintro rfl; apply hi; rw [hL]; simp
    simp only
    split
    · exact ⟨rfl, rfl⟩
    · simp [setMsg_out, setMsg_msg, hne]
  | failed s =>
    simp only
    split <;> exact ⟨rfl, rfl⟩

theorem WInv_congr (A : Adapter σ ο) (R Q : σ → Prop) (buf : Nat → ο) (L : List Nat) (w : Worker σ)
    (sh sh' : Shared ο) (h : WInv A R Q buf L w sh) (he : ∀ i ∈ L, sh'.out i = sh.out i ∧ sh'.msg i = sh.msg i) :
    WInv A R Q buf L w sh' := by
  obtain ⟨a, todo, phase⟩ := w
  cases phase with
  | idle =>
    obtain ⟨d, hL, hR, hd, ht⟩ := h
    refine ⟨d, hL, hR, ?_, ?_⟩
    · intro s hs
      have := he s (by rw [hL]; simp [hs])
      have h2 := hd s hs
      exact ⟨by rw [this.1]; exact h2.1, by rw [this.2]; exact h2.2⟩
    · intro s hs
      have hs' : s ∈ todo := hs
      have := he s (by rw [hL]; simp [hs'])
      have h2 := ht s hs
      exact ⟨by rw [this.1]; exact h2.1, by rw [this.2]; exact h2.2⟩
  | ready c =>
    obtain ⟨d, hL, hR, hd, hc, ht⟩ := h
    have ec := he c (by rw [hL]; simp)
    refine ⟨d, hL, hR, ?_, ⟨by rw [ec.1]; exact hc.1, by rw [ec.2]; exact hc.2⟩, ?_⟩
    · intro s hs
      have := he s (by rw [hL]; simp [hs])
      have h2 := hd s hs
      exact ⟨by rw [this.1]; exact h2.1, by rw [this.2]; exact h2.2⟩
    · intro s hs
      have hs' : s ∈ todo := hs
      have := he s (by rw [hL]; simp [hs'])
      have h2 := ht s hs
      exact ⟨by rw [this.1]; exact h2.1, by rw [this.2]; exact h2.2⟩
  | ran c =>
    obtain ⟨d, hL, ⟨b, h1, h2, h3, h4, h5⟩, hd, hc, ht⟩ := h
    have ec := he c (by rw [hL]; simp)
    refine ⟨d, hL, ⟨b, h1, h2, h3, h4, by rw [ec.1]; exact h5⟩, ?_, by rw [ec.2]; exact hc, ?_⟩
    · intro s hs
      have := he s (by rw [hL]; simp [hs])
      have h2 := hd s hs
      exact ⟨by rw [this.1]; exact h2.1, by rw [this.2]; exact h2.2⟩
    · intro s hs
      have hs' : s ∈ todo := hs
      have := he s (by rw [hL]; simp [hs'])
      have h2 := ht s hs
      exact ⟨by rw [this.1]; exact h2.1, by rw [this.2]; exact h2.2⟩
  | failed c =>
    obtain ⟨d, hL, hR, hd, hc, ht⟩ := h
    have ec := he c (by rw [hL]; simp)
    refine ⟨d, hL, hR, ?_, ⟨by rw [ec.1]; exact hc.1, by rw [ec.2]; exact hc.2⟩, ?_⟩
    · intro s hs
      have := he s (by rw [hL]; simp [hs])
      have h2 := hd s hs
      exact ⟨by rw [this.1]; exact h2.1, by rw [this.2]; exact h2.2⟩
    · intro s hs
      have hs' : s ∈ todo := hs
      have := he s (by rw [hL]; simp [hs'])
      have h2 := ht s hs
      exact ⟨by rw [this.1]; exact h2.1, by rw [this.2]; exact h2.2⟩

theorem fresh_setup_fail (A : Adapter σ ο) (buf : Nat → ο) (s : Nat) (e : Exn)
    (h : (A.setup s A.base).2 = some e) : fresh A buf s = (buf s, e.message) := by
  rw [message_eq]
  unfold fresh
  rcases hx : A.setup s A.base with ⟨a, oe⟩
  rw [hx] at h
  simp only at h
  subst h
  rfl

theorem fresh_run_fail (A : Adapter σ ο) (buf : Nat → ο) (s : Nat) (e : Exn)
    (h0 : (A.setup s A.base).2 = none) (h : (A.run s (A.setup s A.base).1).2.2 = some e) :
    fresh A buf s = ((A.run s (A.setup s A.base).1).2.1.getD (buf s), e.message) := by
  rw [message_eq]
  unfold fresh
  rcases hx : A.setup s A.base with ⟨a, oe⟩
  rw [hx] at h0 h
  simp only at h0
  subst h0
  rcases hy : A.run s a with ⟨b, o, oe⟩
  simp only [hy] at h
  subst h
  simp only [hy]

theorem fresh_wd (A : Adapter σ ο) (buf : Nat → ο) (s : Nat)
    (h0 : (A.setup s A.base).2 = none) (h1 : (A.run s (A.setup s A.base).1).2.2 = none) :
    fresh A buf s = ((A.run s (A.setup s A.base).1).2.1.getD (buf s),
      match (A.winddown (A.run s (A.setup s A.base).1).1).2 with | none => "" | some e => e.message) := by
  unfold fresh
  rcases hx : A.setup s A.base with ⟨a, oe⟩
  rw [hx] at h0 h1
  simp only at h0
  subst h0
  rcases hy : A.run s a with ⟨b, o, oe⟩
  simp only [hy] at h1
  subst h1
  rcases hz : A.winddown b with ⟨c, oe⟩
  cases oe with
  | none => simp only [hy, hz]
  | some e => simp only [hy, hz, message_eq]

theorem workerStep_inv (A : Adapter σ ο) (R Q : σ → Prop) (hf : Faithful A R Q) (buf : Nat → ο) (L : List Nat)
    (hnd : L.Nodup) (w : Worker σ) (sh : Shared ο) (h : WInv A R Q buf L w sh) :
    WInv A R Q buf L (workerStep A w sh).1 (workerStep A w sh).2 := by
  obtain ⟨a, todo, phase⟩ := w
  -- preservation of `Done` and `Untouched` for slots different from the one written
  have pD : ∀ (sh : Shared ο) (c : Nat) (o : Option ο) (s : Nat), s ≠ c → Done A buf sh s →
      Done A buf (sh.setOut c o) s := by
    intro sh c o s hne hd
    exact ⟨by rw [setOut_out, if_neg hne]; exact hd.1, by rw [setOut_msg]; exact hd.2⟩
  have pU : ∀ (sh : Shared ο) (c : Nat) (o : Option ο) (s : Nat), s ≠ c → Untouched buf sh s →
      Untouched buf (sh.setOut c o) s := by
    intro sh c o s hne hd
    exact ⟨by rw [setOut_out, if_neg hne]; exact hd.1, by rw [setOut_msg]; exact hd.2⟩
  have pDm : ∀ (sh : Shared ο) (c : Nat) (m : String) (s : Nat), s ≠ c → Done A buf sh s →
      Done A buf (sh.setMsg c m) s := by
    intro sh c m s hne hd
    exact ⟨by rw [setMsg_out]; exact hd.1, by rw [setMsg_msg, if_neg hne]; exact hd.2⟩
  have pUm : ∀ (sh : Shared ο) (c : Nat) (m : String) (s : Nat), s ≠ c → Untouched buf sh s →
      Untouched buf (sh.setMsg c m) s := by
    intro sh c m s hne hd
    exact ⟨by rw [setMsg_out]; exact hd.1, by rw [setMsg_msg, if_neg hne]; exact hd.2⟩
  have neD : ∀ (d todo : List Nat) (c s : Nat), L = d ++ c :: todo → s ∈ d → s ≠ c := by
    intro d todo c s hL hs heq
    subst heq
    rw [hL, List.nodup_append] at hnd
    exact hnd.2.2 s hs s (by simp) rfl
  have neT : ∀ (d todo : List Nat) (c s : Nat), L = d ++ c :: todo → s ∈ todo → s ≠ c := by
    intro d todo c s hL hs heq
    subst heq
    rw [hL, List.nodup_append, List.nodup_cons] at hnd
    exact hnd.2.1.1 hs
  unfold workerStep
  cases phase with
  | idle =>
    cases todo with
    | nil => exact h
    | cons s rest =>
      obtain ⟨d, hL, hR, hd, ht⟩ := h
      have hR' : R a := hR
      have hL' : L = d ++ s :: rest := hL
      have hs0 : Untouched buf sh s := ht s (by simp)
      have hseq := hf.setup_eq s a hR'
      simp only
      rcases hx : A.setup s a with ⟨b, oe⟩
      cases oe with
      | none =>
        exact ⟨d, hL', ⟨a, hR', by rw [hx], by rw [hx]⟩, hd, hs0, fun s' hs' => ht s' (by simp [hs'])⟩
      | some e =>
        have hq : Q b := by
          have := hf.setup_fail s a hR' (by rw [hx]; simp)
          rwa [hx] at this
        have hfr := fresh_setup_fail A buf s e (by rw [← hseq, hx])
        refine ⟨d, hL', hq, fun s' hs' => pDm _ _ _ _ (neD _ _ _ _ hL' hs') (hd s' hs'), ⟨?_, ?_⟩,
          fun s' hs' => pUm _ _ _ _ (neT _ _ _ _ hL' hs') (ht s' (by simpa using Or.inr hs'))⟩
        · rw [hfr, setMsg_out]; exact hs0.1
        · rw [hfr, setMsg_msg, if_pos rfl]
  | ready s =>
    obtain ⟨d, hL, ⟨b, hR, hse, hab⟩, hd, hs0, ht⟩ := h
    simp only at hL hab ht
    have hbase : (A.setup s A.base).2 = none := by rw [← hf.setup_eq s b hR]; exact hse
    have hrun := hf.run_eq s b hR hse
    simp only
    rcases hx : A.run s a with ⟨c, o, oe⟩
    have hx' : A.run s (A.setup s b).1 = (c, o, oe) := by rw [← hab]; exact hx
    cases oe with
    | none =>
      refine ⟨d, hL, ⟨b, hR, hse, by rw [hx'], by rw [hx'], ?_⟩,
        fun s' hs' => pD _ _ _ _ (neD _ _ _ _ hL hs') (hd s' hs'), ?_,
        fun s' hs' => pU _ _ _ _ (neT _ _ _ _ hL hs') (ht s' hs')⟩
      · rw [hx', setOut_out, if_pos rfl, hs0.1]
      · rw [setOut_msg]; exact hs0.2
    | some e =>
      have hq : Q c := by
        have := hf.run_fail s b hR hse (by rw [hx']; simp)
        rwa [hx'] at this
      have hfr := fresh_run_fail A buf s e hbase (by rw [← hrun, hx'])
      rw [← hrun, hx'] at hfr
      refine ⟨d, hL, hq, fun s' hs' => pDm _ _ _ _ (neD _ _ _ _ hL hs') (pD _ _ _ _ (neD _ _ _ _ hL hs') (hd s' hs')),
        ⟨?_, ?_⟩,
        fun s' hs' => pUm _ _ _ _ (neT _ _ _ _ hL hs') (pU _ _ _ _ (neT _ _ _ _ hL hs') (ht s' hs'))⟩
      · rw [hfr, setMsg_out, setOut_out, if_pos rfl, hs0.1]
      · rw [hfr, setMsg_msg, if_pos rfl]
  | ran s =>
    obtain ⟨d, hL, ⟨b, hR, hse, hre, hab, hout⟩, hd, hs0, ht⟩ := h
    simp only at hL hab ht
    have hbase : (A.setup s A.base).2 = none := by rw [← hf.setup_eq s b hR]; exact hse
    have hrun := hf.run_eq s b hR hse
    have hwd := hf.wd_eq s b hR hse hre
    have hfr := fresh_wd A buf s hbase (by rw [← hrun]; exact hre)
    rw [← hwd, ← hrun, ← hab] at hfr
    simp only
    rcases hx : A.winddown a with ⟨c, oe⟩
    rw [hx] at hfr
    cases oe with
    | none =>
      have hR' : R c := by
        have := hf.wd_ok s b hR hse hre (by rw [← hab, hx])
        rwa [← hab, hx] at this
      refine ⟨d ++ [s], by rw [hL]; simp, hR', ?_, ht⟩
      intro s' hs'
      rcases List.mem_append.mp hs' with h1 | h1
      · exact hd s' h1
      · have : s' = s := by simpa using h1
        subst this
        exact ⟨by rw [hfr]; exact hout, by rw [hfr]; exact hs0⟩
    | some e =>
      have hq : Q c := by
        have := hf.wd_fail s b hR hse hre (by rw [← hab, hx]; simp)
        rwa [← hab, hx] at this
      refine ⟨d, hL, hq, fun s' hs' => pDm _ _ _ _ (neD _ _ _ _ hL hs') (hd s' hs'), ⟨?_, ?_⟩,
        fun s' hs' => pUm _ _ _ _ (neT _ _ _ _ hL hs') (ht s' hs')⟩
      · rw [hfr, setMsg_out]; exact hout
      · rw [hfr, setMsg_msg, if_pos rfl]
  | failed s =>
    obtain ⟨d, hL, hq, hd, hs0, ht⟩ := h
    simp only at hL hq ht
    have hd' : ∀ s' ∈ d ++ [s], Done A buf sh s' := by
      intro s' hs'
      rcases List.mem_append.mp hs' with h1 | h1
      · exact hd s' h1
      · have : s' = s := by simpa using h1
        subst this; exact hs0
    simp only
    rcases hx : A.winddown a with ⟨c, oe⟩
    cases oe with
    | none =>
      have hR : R c := by
        have := hf.recover a hq (by rw [hx])
        rwa [hx] at this
      exact ⟨d ++ [s], by rw [hL]; simp, hR, hd', ht⟩
    | some e => exact ⟨d ++ [s], by rw [hL]; simp, hf.base, hd', ht⟩

/-- Invariant of the whole system; `Ls` are the scenario lists the workers started with. -/
def SInv (A : Adapter σ ο) (R Q : σ → Prop) (buf : Nat → ο) (Ls : List (List Nat)) (y : Sys σ ο) : Prop :=
  y.workers.length = Ls.length ∧
  (∀ (i : Nat) w L, y.workers[i]? = some w → Ls[i]? = some L → WInv A R Q buf L w y.sh) ∧
  (∀ s, s ∉ Ls.flatten → Untouched buf y.sh s)

theorem sysStep_inv (A : Adapter σ ο) (R Q : σ → Prop) (hf : Faithful A R Q) (buf : Nat → ο) (Ls : List (List Nat))
    (hnd : Ls.flatten.Nodup) (y : Sys σ ο) (h : SInv A R Q buf Ls y) (i : Nat) :
    SInv A R Q buf Ls (sysStep A y i) := by
  unfold sysStep
  cases hw : y.workers[i]? with
  | none => exact h
  | some w =>
    obtain ⟨h1, h2, h3⟩ := h
    have hi : i < y.workers.length := by
      rcases Nat.lt_or_ge i y.workers.length with hlt | hge
      · exact hlt
      · rw [List.getElem?_eq_none hge] at hw; cases hw
    have hLi : Ls[i]? = some (Ls[i]'(by omega)) := List.getElem?_eq_getElem (by omega)
    have hwi := h2 i w _ hw hLi
    have hnd' := (nodup_flatten _).mp hnd
    have hndi : (Ls[i]'(by omega)).Nodup := hnd'.1 _ (List.getElem_mem _)
    refine ⟨by simpa using h1, ?_, ?_⟩
    · intro j w' L hj hL
      simp only [List.getElem?_set] at hj
      by_cases hij : i = j
      · subst hij
        rw [if_pos rfl, if_pos hi] at hj
        cases hj
        rw [hLi] at hL
        cases hL
        exact workerStep_inv A R Q hf buf _ hndi w y.sh hwi
      · rw [if_neg hij] at hj
        apply WInv_congr A R Q buf L w' y.sh _ (h2 j w' L hj hL)
        intro s hs
        apply workerStep_frame A R Q buf _ w y.sh hwi s
        intro hsi
        have hjl : j < Ls.length := by
          rcases Nat.lt_or_ge j Ls.length with hlt | hge
          · exact hlt
          · rw [List.getElem?_eq_none hge] at hL; cases hL
        have hpw := List.pairwise_iff_getElem.mp hnd'.2
        have hLj : Ls[j] = L := by
          rw [List.getElem?_eq_getElem hjl] at hL; exact Option.some.inj hL
        rcases Nat.lt_or_gt_of_ne hij with hlt | hgt
        · have := hpw i j (by omega) hjl hlt
          rw [hLj] at this
          exact this s hsi hs
        · have := hpw j i hjl (by omega) hgt
          rw [hLj] at this
          exact this s hs hsi
    · intro s hs
      have hsi : s ∉ (Ls[i]'(by omega)) := by
        intro hm
        exact hs (List.mem_flatten.mpr ⟨_, List.getElem_mem _, hm⟩)
      have := workerStep_frame A R Q buf _ w y.sh hwi s hsi
      have h4 := h3 s hs
      exact ⟨by rw [this.1]; exact h4.1, by rw [this.2]; exact h4.2⟩

theorem exec_inv (A : Adapter σ ο) (R Q : σ → Prop) (hf : Faithful A R Q) (buf : Nat → ο) (Ls : List (List Nat))
    (hnd : Ls.flatten.Nodup) (schedule : List Nat) (y : Sys σ ο) (h : SInv A R Q buf Ls y) :
    SInv A R Q buf Ls (exec A y schedule) := by
  induction schedule generalizing y with
  | nil => exact h
  | cons i rest ih => exact ih _ (sysStep_inv A R Q hf buf Ls hnd y h i)

theorem start_inv (A : Adapter σ ο) (R Q : σ → Prop) (hf : Faithful A R Q) (n : Nat) (threading : Int) (hw : Nat)
    (buf : Nat → ο) : SInv A R Q buf (dispatch n threading hw) (start A n threading hw buf) := by
  refine ⟨by simp [start], ?_, fun s _ => ⟨rfl, rfl⟩⟩
  intro i w L hwi hL
  simp only [start, List.getElem?_map, hL, Option.map_some, Option.some.injEq] at hwi
  subst hwi
  exact ⟨[], rfl, hf.base, by simp, fun s _ => ⟨rfl, rfl⟩⟩

/-- C07. Whatever the number of threads, the hardware, the interleaving of the workers, and whichever scenarios
fail: once all workers are done, each scenario has the output and the message of its isolated calculation, and slots
that belong to no scenario are untouched. -/
theorem batch_equals_isolated (A : Adapter σ ο) (R Q : σ → Prop) (hf : Faithful A R Q) (n : Nat) (hn : 0 < n)
    (threading : Int) (hw : Nat) (buf : Nat → ο) (schedule : List Nat)
    (hfin : (exec A (start A n threading hw buf) schedule).finished) :
    (∀ s, s < n →
      (exec A (start A n threading hw buf) schedule).sh.out s = (fresh A buf s).1 ∧
      (exec A (start A n threading hw buf) schedule).sh.msg s = (fresh A buf s).2) ∧
    (∀ s, n ≤ s →
      (exec A (start A n threading hw buf) schedule).sh.out s = buf s ∧
      (exec A (start A n threading hw buf) schedule).sh.msg s = "") := by
  have hperm := scenarios_exactly_once n hn threading hw
  have hnd : (dispatch n threading hw).flatten.Nodup := hperm.nodup_iff.mpr List.nodup_range
  obtain ⟨h1, h2, h3⟩ := exec_inv A R Q hf buf _ hnd schedule _ (start_inv A R Q hf n threading hw buf)
  constructor
  · intro s hs
    have hmem : s ∈ (dispatch n threading hw).flatten := hperm.mem_iff.mpr (List.mem_range.mpr hs)
    obtain ⟨L, hL, hsL⟩ := List.mem_flatten.mp hmem
    obtain ⟨i, hi⟩ := List.getElem?_of_mem hL
    have hil : i < (dispatch n threading hw).length := by
      rcases Nat.lt_or_ge i (dispatch n threading hw).length with hlt | hge
      · exact hlt
      · rw [List.getElem?_eq_none hge] at hi; cases hi
    have hwi := List.getElem?_eq_getElem (l := (exec A (start A n threading hw buf) schedule).workers)
      (i := i) (by omega)
    have hinv := h2 i _ L hwi hi
    have hf := hfin _ (List.getElem_mem (l := (exec A (start A n threading hw buf) schedule).workers)
      (n := i) (by omega))
    unfold WInv at hinv
    rw [hf.2] at hinv
    simp only at hinv
    obtain ⟨d, hLd, _, hd, _⟩ := hinv
    rw [hf.1, List.append_nil] at hLd
    subst hLd
    exact hd s hsL
  · intro s hs
    apply h3
    intro hm
    have := List.mem_range.mp (hperm.mem_iff.mp hm)
    omega

/-- C07, error report. The batch error lists exactly the scenarios whose isolated calculation throws an exception with
a non-empty message, in increasing order and each with its own message; and it is raised iff there is such a scenario. -/
theorem batch_report (A : Adapter σ ο) (R Q : σ → Prop) (hf : Faithful A R Q) (n : Nat) (hn : 0 < n)
    (threading : Int) (hw : Nat) (buf : Nat → ο) (schedule : List Nat) (res : (Nat → ο) × Report)
    (h : batchCalculation A n threading hw buf none none schedule = some res) :
    (∀ s, s < n → res.1 s = (fresh A buf s).1) ∧
    (res.2 = .success ↔ ∀ s, s < n → (fresh A buf s).2 = "") ∧
    (∀ l, res.2 = .batchError l ↔
      l = ((List.range n).filter (fun s => (fresh A buf s).2 ≠ "")).map (fun s => (s, (fresh A buf s).2)) ∧ l ≠ []) ∧
    (∀ e, res.2 ≠ .error e) := by
  unfold batchCalculation at h
  rw [if_neg (by omega)] at h
  simp only at h
  split at h
  case isFalse => cases h
  case isTrue hall =>
    have hfin : (exec A (start A n threading hw buf) schedule).finished := by
      intro w hw
      have := List.all_eq_true.mp hall w hw
      simpa using this
    have hb := (batch_equals_isolated A R Q hf n hn threading hw buf schedule hfin).1
    have hlist : ((List.range n).filter
          (fun s => (exec A (start A n threading hw buf) schedule).sh.msg s ≠ "")).map
          (fun s => (s, (exec A (start A n threading hw buf) schedule).sh.msg s)) =
        ((List.range n).filter (fun s => (fresh A buf s).2 ≠ "")).map (fun s => (s, (fresh A buf s).2)) := by
      have e1 : (List.range n).filter
          (fun s => (exec A (start A n threading hw buf) schedule).sh.msg s ≠ "") =
          (List.range n).filter (fun s => (fresh A buf s).2 ≠ "") := by
        apply List.filter_congr
        intro s hs
        rw [(hb s (List.mem_range.mp hs)).2]
      rw [e1]
      apply List.map_congr_left
      intro s hs
      have hsn : s < n := List.mem_range.mp (List.mem_filter.mp hs).1
      rw [(hb s hsn).2]
    have hempty : ((List.range n).filter (fun s => (fresh A buf s).2 ≠ "")).map (fun s => (s, (fresh A buf s).2)) = [] ↔
        ∀ s, s < n → (fresh A buf s).2 = "" := by
      simp [List.filter_eq_nil_iff]
    unfold handleBatchExceptions at h
    simp only [hlist] at h
    split at h
    · rename_i heq
      split at heq
      · rename_i hnil
        simp only [Option.some.injEq] at h
        subst h
        refine ⟨fun s hs => (hb s hs).1, ?_, ?_, ?_⟩
        · exact ⟨fun _ => hempty.mp hnil, fun _ => rfl⟩
        · intro l
          constructor
          · intro hc; cases hc
          · rintro ⟨rfl, hne⟩
            exact absurd hnil hne
        · intro e hc; cases hc
      · cases heq
    · rename_i l' heq
      split at heq
      · cases heq
      · rename_i hnil
        simp only [Option.some.injEq] at heq h
        subst h
        refine ⟨fun s hs => (hb s hs).1, ?_, ?_, ?_⟩
        · constructor
          · intro hc; cases hc
          · intro hc; exact absurd (hempty.mpr hc) hnil
        · intro l
          constructor
          · intro hc
            cases hc
            exact ⟨heq.symm, by rw [← heq]; exact hnil⟩
          · rintro ⟨rfl, _⟩
            rw [heq]
        · intro e hc; cases hc

/-- C07. Two runs of the same batch with different threading, hardware and interleaving give the same outputs of all
scenarios and the same report. -/
theorem batch_threading_irrelevant (A : Adapter σ ο) (R Q : σ → Prop) (hf : Faithful A R Q) (n : Nat)
    (t1 t2 : Int) (hw1 hw2 : Nat) (buf : Nat → ο) (sch1 sch2 : List Nat) (r1 r2 : (Nat → ο) × Report)
    (h1 : batchCalculation A n t1 hw1 buf none none sch1 = some r1)
    (h2 : batchCalculation A n t2 hw2 buf none none sch2 = some r2) :
    (∀ s, s < n → r1.1 s = r2.1 s) ∧ r1.2 = r2.2 := by
  rcases Nat.eq_zero_or_pos n with hn | hn
  · subst hn
    simp only [batchCalculation, if_true, Option.some.injEq] at h1 h2
    subst h1; subst h2
    exact ⟨fun _ h => absurd h (by omega), rfl⟩
  · obtain ⟨a1, b1, c1, d1⟩ := batch_report A R Q hf n hn t1 hw1 buf sch1 r1 h1
    obtain ⟨a2, b2, c2, d2⟩ := batch_report A R Q hf n hn t2 hw2 buf sch2 r2 h2
    refine ⟨fun s hs => by rw [a1 s hs, a2 s hs], ?_⟩
    rcases hr1 : r1.2 with _ | l | e
    · exact (b2.mpr (b1.mp hr1)).symm
    · exact ((c2 l).mpr ((c1 l).mp hr1)).symm
    · exact absurd hr1 (d1 e)

/-- Progress measure of a worker. -/
def work (w : Worker σ) : Nat :=
  4 * w.todo.length + match w.phase with | .idle => 0 | .ready _ => 3 | .ran _ => 2 | .failed _ => 1

theorem workerStep_progress (A : Adapter σ ο) (w : Worker σ) (sh : Shared ο) :
    (workerStep A w sh).1 = w ∧ work w = 0 ∨ work (workerStep A w sh).1 < work w := by
  obtain ⟨a, todo, phase⟩ := w
  unfold workerStep
  cases phase with
  | idle =>
    cases todo with
    | nil => exact .inl ⟨rfl, rfl⟩
    | cons s rest =>
      right
      simp only
      split <;> simp [work] <;> omega
  | ready s => right; simp only; split <;> simp [work]
  | ran s => right; simp only; split <;> simp [work]
  | failed s => right; simp only; split <;> simp [work]

theorem exec_append (A : Adapter σ ο) (y : Sys σ ο) (s1 s2 : List Nat) :
    exec A y (s1 ++ s2) = exec A (exec A y s1) s2 := by simp [exec]

/-- C07, termination: from every reachable state (every schedule prefix) some continuation lets all workers finish,
so a batch never blocks. -/
theorem batch_can_finish (A : Adapter σ ο) (y : Sys σ ο) :
    ∃ schedule, (exec A y schedule).finished := by
  have total : ∀ (m : Nat) (y : Sys σ ο), (y.workers.map work).sum = m → ∃ schedule, (exec A y schedule).finished := by
    intro m
    induction m using Nat.strongRecOn with
    | _ m ih =>
      intro y hm
      by_cases hall : ∀ w ∈ y.workers, work w = 0
      · refine ⟨[], ?_⟩
        intro w hw
        have h0 := hall w hw
        obtain ⟨a, todo, phase⟩ := w
        unfold work at h0
        simp only at h0
        have : todo = [] := List.eq_nil_of_length_eq_zero (by omega)
        cases phase <;> simp_all
      · have ⟨w, hw, hne⟩ : ∃ w ∈ y.workers, work w ≠ 0 := by
          apply Classical.byContradiction
          intro hno
          apply hall
          intro w hw
          apply Classical.byContradiction
          intro hne
          exact hno ⟨w, hw, hne⟩
        obtain ⟨i, hi⟩ := List.getElem?_of_mem hw
        have hlt : work (workerStep A w y.sh).1 < work w := by
          rcases workerStep_progress A w y.sh with ⟨_, h0⟩ | h
          · exact absurd h0 hne
          · exact h
        have hstep : sysStep A y i = ⟨y.workers.set i (workerStep A w y.sh).1, (workerStep A w y.sh).2⟩ := by
          simp [sysStep, hi]
        have gen : ∀ (l : List (Worker σ)) (i : Nat) (w w' : Worker σ), l[i]? = some w → work w' < work w →
            ((l.set i w').map work).sum < (l.map work).sum := by
          intro l
          induction l with
          | nil => intro i w w' h; simp at h
          | cons x xs ih =>
            intro i w w' h hlt
            cases i with
            | zero =>
              simp at h
              subst h
              simp; omega
            | succ i =>
              simp at h
              have := ih i w w' h hlt
              simp only [List.set_cons_succ, List.map_cons, List.sum_cons]; omega
        have hdec := gen y.workers i w _ hi hlt
        obtain ⟨sch, hsch⟩ := ih _ (by rw [← hm]; exact hdec) (sysStep A y i) (by rw [hstep])
        exact ⟨i :: sch, hsch⟩
  exact total _ y rfl

/-! ### Non-vacuity: an adapter with real failures

The state counts how many scenario updates are applied; scenario 1 fails in set-up (leaving the update half applied),
scenario 3 fails in the calculation; the wind-down resets the state. -/

/-- Example adapter. -/
def exAdapter : Adapter Nat Nat where
  base := 0
  setup := fun s a => if s = 1 then (a + 100, some (.std "bad id")) else (a + s, none)
  run := fun s a => if s = 3 then (a, none, some .other) else (a, some (10 * a + 1), none)
  winddown := fun _ => (0, none)

theorem exAdapter_faithful : Faithful exAdapter (fun a => a = 0) (fun _ => True) := by
  constructor
  · rfl
  all_goals (intros; simp_all [exAdapter])

example (schedule : List Nat)
    (hfin : (exec exAdapter (start exAdapter 5 2 8 (fun _ => 0)) schedule).finished) :
    (exec exAdapter (start exAdapter 5 2 8 (fun _ => 0)) schedule).sh.out 4 = 41 ∧
    (exec exAdapter (start exAdapter 5 2 8 (fun _ => 0)) schedule).sh.msg 1 = "bad id" ∧
    (exec exAdapter (start exAdapter 5 2 8 (fun _ => 0)) schedule).sh.msg 3 = "unknown exception" := by
  have h := (batch_equals_isolated exAdapter _ _ exAdapter_faithful 5 (by omega) 2 8 _ schedule hfin).1
  exact ⟨(h 4 (by omega)).1, (h 1 (by omega)).2, (h 3 (by omega)).2⟩

/-- Finding: a scenario that fails with an exception whose text is empty is not reported at all: the batch is reported
as a success although the scenario was not calculated. This is why `batch_report` speaks of non-empty messages. -/
theorem empty_message_lost :
    ∃ (A : Adapter Nat Nat) (schedule : List Nat) (buf : Nat → Nat) (out : Nat → Nat),
      (A.run 0 (A.setup 0 A.base).1).2.2 = some (.std "") ∧
      batchCalculation A 1 1 1 buf none none schedule = some (out, .success) ∧ out 0 = buf 0 := by
  refine ⟨⟨0, fun _ a => (a, none), fun _ a => (a, none, some (.std "")), fun a => (a, none)⟩, [0, 0, 0],
    fun _ => 7, fun _ => 7, rfl, ?_, rfl⟩
  have hs : strideLoop 0 1 1 = [0] := by simp [strideLoop_lt, strideLoop_ge]
  simp [batchCalculation, start, dispatch, nThreads, hs, exec, sysStep, workerStep, Shared.setMsg, Shared.setOut,
    handleBatchExceptions, Exn.message, List.range, List.range.loop]

end PGM.Batch
