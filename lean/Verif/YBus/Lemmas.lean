import Verif.YBus.Structure
import Mathlib.Algebra.BigOperators.Group.List.Basic

/-!
# The admittance matrix: further lemmas
-/

namespace PGM.YBus

/-! ## Lists -/

theorem flatMap_unique {α β : Type} {l : List α} {g : α → List β} (h : l.Pairwise fun a b => g a = [] ∨ g b = []) {a : α}
    (ha : a ∈ l) (hne : g a ≠ []) : l.flatMap g = g a := by
  induction l with
  | nil => simp at ha
  | cons b l ih =>
    rw [List.pairwise_cons] at h
    rw [List.flatMap_cons]
    rw [List.mem_cons] at ha
    rcases ha with rfl | ha
    · have : l.flatMap g = [] := by
        rw [List.flatMap_eq_nil_iff]
        intro x hx
        rcases h.1 x hx with h1 | h1
        · exact absurd h1 hne
        · exact h1
      rw [this, List.append_nil]
    · rw [ih h.2 ha]
      rcases h.1 a ha with h1 | h1
      · rw [h1, List.nil_append]
      · exact absurd h1 hne

theorem perm_groups (xs : List ElemMap) (ps : List Pos) (hn : ps.Nodup) :
    (ps.flatMap fun p => xs.filter fun x => decide (x.pos = p)).Perm (xs.filter fun x => decide (x.pos ∈ ps)) := by
  induction ps with
  | nil => simp
  | cons p ps ih =>
    rw [List.nodup_cons] at hn
    rw [List.flatMap_cons]
    refine List.Perm.trans (List.Perm.append_left _ (ih hn.2)) ?_
    have := List.filter_append_perm (fun x => decide (x.pos = p)) (xs.filter fun x => decide (x.pos ∈ p :: ps))
    refine List.Perm.trans (List.Perm.of_eq ?_) this
    rw [List.filter_filter, List.filter_filter]
    congr 1 <;> apply List.filter_congr <;> intro x _ <;> rw [Bool.eq_iff_iff] <;> simp
    · tauto
    · constructor
      · intro h
        exact ⟨fun e => hn.1 (e ▸ h), Or.inr h⟩
      · rintro ⟨h1, h2 | h2⟩
        · exact absurd h2 h1
        · exact h2

variable {Y : Type} [AddCommMonoid Y]

theorem foldl_add {α : Type} (f : α → Y) (l : List α) (a : Y) :
    l.foldl (fun acc e => acc + f e) a = a + (l.map f).sum := by
  induction l generalizing a with
  | nil => simp
  | cons x l ih => rw [List.foldl_cons, ih, List.map_cons, List.sum_cons, add_assoc]

theorem sum_flatMap {α β : Type} (f : β → Y) (g : α → List β) (l : List α) :
    ((l.flatMap g).map f).sum = (l.map fun a => ((g a).map f).sum).sum := by
  induction l with
  | nil => rfl
  | cons a l ih => rw [List.flatMap_cons, List.map_append, List.sum_append, ih, List.map_cons, List.sum_cons]

/-- Blocks of a concatenation. -/
theorem block {α β : Type} (g : α → List β) (l : List α) (k : Nat) (hk : k < l.length) :
    ((l.flatMap g).drop ((l.take k).map fun a => (g a).length).sum).take (g l[k]).length = g l[k] := by
  induction l generalizing k with
  | nil => simp at hk
  | cons a l ih =>
    rcases k with _ | k
    · simp
    · rw [List.flatMap_cons, List.take_succ_cons, List.map_cons, List.sum_cons, List.getElem_cons_succ, List.drop_append,
        List.drop_of_length_le (by omega), List.nil_append, Nat.add_sub_cancel_left]
      exact ih k (by simpa using hk)

/-! ## Row pointers -/

/-- In a sorted list the entries of rows below `r` come first. -/
theorem sorted_count {N : List Pos} (h : N.Pairwise Before) (r k : Nat) (hk : k < N.length) :
    N[k].1 < r ↔ k < N.countP fun q => decide (q.1 < r) := by
  induction N generalizing k with
  | nil => simp at hk
  | cons q N ih =>
    rw [List.pairwise_cons] at h
    rw [List.countP_cons]
    by_cases hq : q.1 < r
    · rcases k with _ | k
      · simp [hq]
      · rw [List.getElem_cons_succ, ih h.2 k (by simpa using hk)]
        simp [hq]
    · have h0 : N.countP (fun q => decide (q.1 < r)) = 0 := by
        rw [List.countP_eq_zero]
        intro x hx
        have := h.1 x hx
        simp only [decide_eq_true_eq, not_lt]
        rcases this with h | ⟨h, _⟩ <;> omega
      rcases k with _ | k
      · simp [hq, h0]
      · rw [List.getElem_cons_succ, ih h.2 k (by simpa using hk)]
        simp [hq, h0]

/-- Entry `k` of a compressed matrix is in row `r` and column `c`. -/
def EntryAt (indptr cols : List Nat) (r c k : Nat) : Prop :=
  ∃ a z, indptr[r]? = some a ∧ indptr[r + 1]? = some z ∧ a ≤ k ∧ k < z ∧ cols[k]? = some c

/-- The entries are the positions of the list. -/
theorem entryAt_iff {n : Nat} {N : List Pos} (hs : N.Pairwise Before) (hN : ∀ q ∈ N, q.1 < n) {ip : List Nat}
    (hl : ip.length = n + 1) (hv : ∀ r, r ≤ n → ip[r]? = some (N.countP fun q => decide (q.1 < r))) (r c k : Nat) :
    EntryAt ip (N.map (·.2)) r c k ↔ N[k]? = some (r, c) := by
  constructor
  · rintro ⟨a, z, h1, h2, h3, h4, h5⟩
    have hr : r + 1 < n + 1 := by rw [← hl]; exact (List.getElem?_eq_some_iff.mp h2).1
    rw [hv r (by omega)] at h1
    rw [hv (r + 1) (by omega)] at h2
    injection h1 with h1
    injection h2 with h2
    rw [List.getElem?_map, Option.map_eq_some_iff] at h5
    obtain ⟨p, hp, rfl⟩ := h5
    rw [hp]
    obtain ⟨hk, hp'⟩ := List.getElem?_eq_some_iff.mp hp
    have s1 := sorted_count hs r k hk
    have s2 := sorted_count hs (r + 1) k hk
    rw [h1] at s1
    rw [h2] at s2
    rw [hp'] at s1 s2
    have : p.1 = r := by
      have := s2.mpr h4
      have := fun h => not_lt.mpr h3 (s1.mp h)
      omega
    rw [← this]
  · intro h
    obtain ⟨hk, hp⟩ := List.getElem?_eq_some_iff.mp h
    have hr := hN _ (List.getElem_mem hk)
    rw [hp] at hr
    have s1 := sorted_count hs r k hk
    have s2 := sorted_count hs (r + 1) k hk
    rw [hp] at s1 s2
    simp only [lt_self_iff_false, false_iff, not_lt, Nat.lt_succ_self, true_iff] at s1 s2
    exact ⟨_, _, hv r (by simp only at hr; omega), hv (r + 1) hr, s1, s2, by rw [List.getElem?_map, h]; rfl⟩

/-! ## The structure at the end -/

theorem yPos_sorted (T : Topo) (n : Nat) : (yPos T (positions n)).Pairwise Before := (positions_sorted n).filter _

theorem lPos_sorted (T : Topo) (n : Nat) : (lPos T (positions n)).Pairwise Before := (positions_sorted n).filter _

theorem yPos_nodup (T : Topo) (n : Nat) : (yPos T (positions n)).Nodup := (positions_nodup n).filter _

theorem lPos_nodup (T : Topo) (n : Nat) : (lPos T (positions n)).Nodup := (positions_nodup n).filter _

theorem mem_yPos {T : Topo} {n : Nat} {p : Pos} : p ∈ yPos T (positions n) ↔ p.1 < n ∧ p.2 < n ∧ isY T p = true := by
  unfold yPos
  rw [List.mem_filter, mem_positions, and_assoc]

theorem mem_lPos {T : Topo} {n : Nat} {p : Pos} : p ∈ lPos T (positions n) ↔ p.1 < n ∧ p.2 < n ∧ isL T p = true := by
  unfold lPos
  rw [List.mem_filter, mem_positions, and_assoc]

/-- The transposed position is also there. -/
theorem isL_transposed {T : Topo} {p : Pos} (h : isL T p = true) : isL T (p.2, p.1) = true := by
  by_cases hd : p.1 = p.2
  · have : (p.2, p.1) = p := Prod.ext hd.symm hd
    rw [this]; exact h
  · have := at_transposed T p.1 p.2 hd
    unfold isL at h ⊢
    cases hp : at_ T p with
    | nil => rw [hp] at h; simp at h
    | cons e es =>
      have e0 : at_ T (p.1, p.2) = e :: es := hp
      rw [e0] at this
      cases hq : at_ T (p.2, p.1) with
      | nil => rw [hq] at this; simp at this
      | cons => rfl

theorem swap_flags (e : Elem) (h : e.type = .ft ∨ e.type = .tf ∨ e.type = .fillFt ∨ e.type = .fillTf) (T : Topo) :
    isFt (swapEl e) = !isFt e ∧ slot T (swapEl e) = slot T e := by
  obtain ⟨ty, i⟩ := e
  simp only at h
  rcases h with rfl | rfl | rfl | rfl <;> simp [isFt, swapEl, slot, ElType.isFill]

/-- Every write of the loop over `off_diag_map` connects the two entries of a pair. -/
theorem off_pairs {T : Topo} (G : Good T) {b : Build} (h : Inv T (positions T.nBus) b) (k : Nat) (a z : Nat)
    (ha : b.offFt[k]? = some a) (hz : b.offTf[k]? = some z) :
    (a = 0 ∧ z = 0) ∨ ∃ p ∈ lPos T (positions T.nBus), p.1 ≠ p.2 ∧ a = (lPos T (positions T.nBus)).idxOf p ∧
      z = (lPos T (positions T.nBus)).idxOf (p.2, p.1) := by
  -- a recorded direction implies that the other one is recorded as well
  have key : ∀ p ∈ lPos T (positions T.nBus), p.1 ≠ p.2 → ∀ e es, at_ T p = e :: es →
      ∃ e' es', at_ T (p.2, p.1) = e' :: es' ∧ isFt e'.el = !isFt e.el ∧ slot T e'.el = slot T e.el ∧
        (p.2, p.1) ∈ lPos T (positions T.nBus) := by
    intro p hp hd e es he
    have ht := at_transposed T p.1 p.2 hd
    rw [show at_ T (p.1, p.2) = e :: es from he] at ht
    rw [mem_lPos] at hp
    cases hq : at_ T (p.2, p.1) with
    | nil => rw [hq] at ht; simp at ht
    | cons e' es' =>
      rw [hq] at ht
      simp only [List.map_cons, List.cons.injEq] at ht
      have hm : e ∈ at_ T p := by simp [he]
      have := type_off hd hm
      have sw := swap_flags e.el (by rcases this with ⟨_, h | h⟩ | ⟨_, h | h⟩ <;> simp [h]) T
      exact ⟨e', es', rfl, by rw [ht.1, sw.1], by rw [ht.1, sw.2], mem_lPos.mpr ⟨hp.2.1, hp.1, isL_transposed hp.2.2⟩⟩
  rcases h.offFt.only k a ha with h0 | ⟨p, hp, hd, e, es, he, hft, hsl, hv⟩
  · rcases h.offTf.only k z hz with h1 | ⟨p, hp, hd, e, es, he, hft, hsl, hv⟩
    · exact Or.inl ⟨h0, h1⟩
    · right
      obtain ⟨e', es', he', hft', hsl', hmem⟩ := key p hp hd e es he
      have := h.offFt.recorded (p.2, p.1) hmem (fun e => hd e.symm) e' es' he' (by rw [hft', hft]; rfl)
      rw [hsl', hsl, ha] at this
      injection this with this
      exact ⟨(p.2, p.1), hmem, fun e => hd e.symm, this, hv⟩
  · right
    obtain ⟨e', es', he', hft', hsl', hmem⟩ := key p hp hd e es he
    have := h.offTf.recorded (p.2, p.1) hmem (fun e => hd e.symm) e' es' he' (by rw [hft', hft]; rfl)
    rw [hsl', hsl, hz] at this
    injection this with this
    exact ⟨p, hp, hd, hv, this⟩

/-- A loop that writes `tr e` in place `e`. -/
theorem writes (tr : Nat → Nat) (ps : List (Nat × Nat)) (hps : ∀ e ∈ ps, e.2 = tr e.1 ∧ e.1 = tr e.2) (t : List Nat) :
    (ps.foldl setTranspose t).length = t.length ∧
    ∀ k, k < t.length → (ps.foldl setTranspose t)[k]? =
      if (∃ e ∈ ps, e.1 = k ∨ e.2 = k) then some (tr k) else t[k]? := by
  induction ps generalizing t with
  | nil => simp
  | cons e ps ih =>
    obtain ⟨i1, i2⟩ := ih (fun e he => hps e (by simp [he])) (setTranspose t e)
    have hlen : (setTranspose t e).length = t.length := by simp [setTranspose]
    rw [List.foldl_cons]
    refine ⟨by rw [i1, hlen], fun k hk => ?_⟩
    rw [i2 k (by rw [hlen]; exact hk)]
    obtain ⟨h1, h2⟩ := hps e (by simp)
    by_cases hex : ∃ e' ∈ ps, e'.1 = k ∨ e'.2 = k
    · rw [if_pos hex, if_pos]
      obtain ⟨e', he', h⟩ := hex
      exact ⟨e', by simp [he'], h⟩
    · rw [if_neg hex]
      by_cases hk1 : e.1 = k ∨ e.2 = k
      · rw [if_pos ⟨e, by simp, hk1⟩]
        unfold setTranspose
        by_cases hk2 : e.2 = k
        · subst hk2
          rw [List.getElem?_set_self (by simpa using hk), h2]
        · rcases hk1 with hk1 | hk1
          · subst hk1
            rw [List.getElem?_set_ne hk2, List.getElem?_set_self hk, h1]
          · exact absurd hk1 hk2
      · rw [if_neg]
        · push Not at hk1
          unfold setTranspose
          rw [List.getElem?_set_ne hk1.2, List.getElem?_set_ne hk1.1]
        · rintro ⟨e', he', h⟩
          rw [List.mem_cons] at he'
          rcases he' with rfl | he'
          · exact hk1 h
          · exact hex ⟨e', he', h⟩

/-- The transposed entries. -/
theorem transpose_final {T : Topo} (G : Good T) {b : Build} (h : Inv T (positions T.nBus) b) (p : Pos)
    (hp : p ∈ lPos T (positions T.nBus)) :
    ((b.offFt.zip b.offTf).foldl setTranspose (List.range b.nnzLu))[(lPos T (positions T.nBus)).idxOf p]? =
      some ((lPos T (positions T.nBus)).idxOf (p.2, p.1)) := by
  set L := lPos T (positions T.nBus) with hL
  have hnnz : b.nnzLu = L.length := by unfold Build.nnzLu; rw [h.map]; simp [hL]
  have hnod : L.Nodup := lPos_nodup T T.nBus
  -- entry 0 is the first diagonal
  have h00 : ((0, 0) : Pos) ∈ L := mem_lPos.mpr ⟨Nat.pos_of_ne_zero G.pos, Nat.pos_of_ne_zero G.pos,
    isL_of_isY (G.cover 0 (Nat.pos_of_ne_zero G.pos))⟩
  have hi00 : L.idxOf (0, 0) = 0 := by
    have hlt := List.idxOf_lt_length_of_mem h00
    have hsort := lPos_sorted T T.nBus
    rw [← hL] at hsort
    by_contra hne
    have := (List.pairwise_iff_getElem.mp hsort) 0 (L.idxOf (0, 0)) (by omega) hlt (by omega)
    rw [List.getElem_idxOf hlt] at this
    rcases this with h | ⟨_, h⟩ <;> simp at h
  let tr : Nat → Nat := fun k => match L[k]? with
    | some q => L.idxOf (q.2, q.1)
    | none => 0
  have htr : ∀ q ∈ L, tr (L.idxOf q) = L.idxOf (q.2, q.1) := by
    intro q hq
    have hlt := List.idxOf_lt_length_of_mem hq
    simp only [tr]
    rw [List.getElem?_eq_getElem hlt, List.getElem_idxOf hlt]
  have hswap : ∀ q ∈ L, (q.2, q.1) ∈ L := fun q hq => by
    rw [hL, mem_lPos] at hq ⊢
    exact ⟨hq.2.1, hq.1, isL_transposed hq.2.2⟩
  have hps : ∀ e ∈ b.offFt.zip b.offTf, e.2 = tr e.1 ∧ e.1 = tr e.2 := by
    intro e he
    obtain ⟨k, hk, hke⟩ := List.mem_iff_getElem.mp he
    rw [List.getElem_zip] at hke
    have hk' := hk
    rw [List.length_zip] at hk'
    rcases off_pairs G h k e.1 e.2 (by rw [← hke, List.getElem?_eq_getElem (by omega)])
      (by rw [← hke, List.getElem?_eq_getElem (by omega)]) with ⟨e1, e2⟩ | ⟨q, hq, hd, e1, e2⟩
    · have := htr (0, 0) h00
      rw [hi00] at this
      exact ⟨by rw [e1, e2, this], by rw [e1, e2, this]⟩
    · rw [e1, e2, ← hL, htr q hq, htr _ (hswap q hq)]
      exact ⟨rfl, rfl⟩
  obtain ⟨_, w⟩ := writes tr (b.offFt.zip b.offTf) hps (List.range b.nnzLu)
  have hlt := List.idxOf_lt_length_of_mem hp
  rw [w _ (by rw [List.length_range, hnnz]; exact hlt), htr p hp]
  split_ifs with hex
  · rfl
  · -- not written: then diagonal
    by_cases hd : p.1 = p.2
    · rw [List.getElem?_range (by rw [hnnz]; exact hlt)]
      congr 2
      exact Prod.ext hd hd.symm
    · exfalso
      apply hex
      have hpl := hp
      rw [hL, mem_lPos] at hpl
      cases he : at_ T p with
      | nil => have := hpl.2.2; simp [isL, he] at this
      | cons e es =>
        have hsl : slot T e.el < T.branches.length + T.fillIn.length := slot_lt hd (by simp [he])
        have l1 := h.offFt.len
        have l2 := h.offTf.len
        have hmemz : ∀ (k : Nat) (h1 : k < b.offFt.length) (h2 : k < b.offTf.length),
            (b.offFt[k], b.offTf[k]) ∈ b.offFt.zip b.offTf := fun k h1 h2 => by
          rw [List.mem_iff_getElem]
          exact ⟨k, by rw [List.length_zip]; omega, by rw [List.getElem_zip]⟩
        cases hft : isFt e.el
        · have := h.offTf.recorded p hp hd e es he hft
          rw [List.getElem?_eq_some_iff] at this
          obtain ⟨h2, h3⟩ := this
          exact ⟨_, hmemz _ (by omega) h2, Or.inr h3⟩
        · have := h.offFt.recorded p hp hd e es he hft
          rw [List.getElem?_eq_some_iff] at this
          obtain ⟨h2, h3⟩ := this
          exact ⟨_, hmemz _ h2 (by omega), Or.inl h3⟩

end PGM.YBus
