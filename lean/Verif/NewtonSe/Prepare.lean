import Verif.NewtonSe.Rows
import Verif.StateEst.Matrix
import Verif.Observability.Scan

/-!
# What the equations of an iteration are

Lemmas for C55: the loops over the rows and entries.
-/

namespace PGM.NewtonSe

open PGM.YBus PGM.Lu PGM.PowerFlow PGM.StateEst Matrix
open PGM.NewtonPf (RM Polar phasor modify_self modify_ne)

variable {s : Symm}

/-! ## One row -/

/-- What the loop over the entries of a row has done for the entries `K`. -/
structure RowInv (S : YBus.Structure) (row diag : Nat) (d : Nat → QV s) (R : QM s) (sys0 : Sys s) (K : Finset Nat) (seen : Bool) (a b : QV s)
    (x : Sys s) : Prop where
  len : x.gain.length = sys0.gain.length
  other : ∀ j, j ∉ K → getB x j = getB sys0 j
  rhs : ∀ r, r ≠ row → x.rhs r = sys0.rhs r
  qt : ∀ j, j ∈ K → (getB x j).qt = 0
  r : ∀ j, j ∈ K → (getB x j).r = if j = diag ∧ seen = true then R else 0
  fill : ∀ j, j ∈ K → S.mapLuYBus[j]?.getD none = none → (getB x j).q = 0
  first : defect1 S K row d x = a
  second : defect2 S K row d x = b

variable {S : YBus.Structure} {row diag : Nat} {d : Nat → QV s} {R : QM s} {sys0 : Sys s} {K : Finset Nat} {seen : Bool} {a b : QV s} {x : Sys s}

theorem RowInv.clear (h : RowInv S row diag d R sys0 K seen a b x) {k : Nat} (hk : k < x.gain.length) (hK : k ∉ K) (hd : k ≠ diag) :
    RowInv S row diag d R sys0 (insert k K) seen a b (clearBlock k x) := by
  have hself : getB (clearBlock k x) k = .zero := getB_modify_self hk _
  have hne : ∀ j, j ≠ k → getB (clearBlock k x) j = getB x j := fun j hj => getB_modify_ne (Ne.symm hj) _
  refine ⟨by simp [clearBlock, h.len], fun j hj => ?_, h.rhs, fun j hj => ?_, fun j hj => ?_, fun j hj hm => ?_, ?_, ?_⟩
  · rw [Finset.mem_insert, not_or] at hj
    rw [hne j hj.1, h.other j hj.2]
  · by_cases e : j = k
    · rw [e, hself]; rfl
    · rw [hne j e]; exact h.qt j ((Finset.mem_insert.mp hj).resolve_left e)
  · by_cases e : j = k
    · rw [e, hself, if_neg (fun h => hd h.1)]; rfl
    · rw [hne j e]; exact h.r j ((Finset.mem_insert.mp hj).resolve_left e)
  · by_cases e : j = k
    · rw [e, hself]; rfl
    · rw [hne j e]; exact h.fill j ((Finset.mem_insert.mp hj).resolve_left e) hm
  · rw [← h.first]
    unfold defect1
    rw [Finset.sum_insert hK, hself]
    simp only [Block.zero, zero_mulVec, zero_add]
    congr 1
    exact Finset.sum_congr rfl fun j hj => by rw [hne j (fun e => hK (e ▸ hj))]
  · rw [← h.second]
    unfold defect2
    rw [Finset.sum_insert hK, hself]
    simp only [Block.zero, zero_mulVec, zero_add]
    congr 1
    exact Finset.sum_congr rfl fun j hj => by rw [hne j (fun e => hK (e ▸ hj))]

theorem RowInv.eff (h : RowInv S row diag d R sys0 K seen a b x) {k : Nat} (hk : k ∈ K) (hd : diag ∈ K) {x' : Sys s} {a' b' : QV s}
    (g : Eff S K row k diag d x x' a' b') (hm : S.mapLuYBus[diag]?.getD none ≠ none)
    (hq : S.mapLuYBus[k]?.getD none = none → (getB x' k).q = (getB x k).q) : RowInv S row diag d R sys0 K seen (a + a') (b + b') x' := by
  refine ⟨g.len.trans h.len, fun j hj => ?_, fun r hr => (g.rhs r hr).trans (h.rhs r hr), fun j hj => ?_, fun j hj => ?_, fun j hj hn => ?_, ?_, ?_⟩
  · rw [g.other j (fun e => hj (e ▸ hk)) (fun e => hj (e ▸ hd)), h.other j hj]
  · rw [g.qt, h.qt j hj]
  · rw [g.r, h.r j hj]
  · by_cases e : j = k
    · subst e; rw [hq hn, h.fill j hj hn]
    · by_cases e' : j = diag
      · subst e'; exact absurd hn hm
      · rw [g.other j e e', h.fill j hj hn]
  · rw [g.first, h.first]
  · rw [g.second, h.second]

/-- The last quarter of the block of a diagonal entry. -/
def rDiag (M : Measured s) (row : Nat) : (Fin s.phases → ℝ) × (Fin s.phases → ℝ) :=
  match M.injection row with
  | some m => (fun p => -m.vp p, fun p => -m.vq p)
  | none => (fun _ => -1, fun _ => -1)

/-- The same as a matrix. -/
def rBlock (M : Measured s) (row : Nat) : QM s := fromBlocks (diagonal (rDiag M row).1) 0 0 (diagonal (rDiag M row).2)

theorem RowInv.setR {u v : Fin s.phases → ℝ} (h : RowInv S row diag d (fromBlocks (diagonal u) 0 0 (diagonal v)) sys0 K false a b x) (hd : diag ∈ K)
    (hl : diag < x.gain.length) : RowInv S row diag d (fromBlocks (diagonal u) 0 0 (diagonal v)) sys0 K true a b (setR diag u v x) := by
  have hself : getB (NewtonSe.setR diag u v x) diag = _ := getB_modify_self hl _
  have hne : ∀ j, j ≠ diag → getB (NewtonSe.setR diag u v x) j = getB x j := fun j hj => getB_modify_ne (Ne.symm hj) _
  have hg : ∀ j, (getB (NewtonSe.setR diag u v x) j).g = (getB x j).g := getB_modify_keep hl _ Block.g fun _ => rfl
  have hq : ∀ j, (getB (NewtonSe.setR diag u v x) j).q = (getB x j).q := getB_modify_keep hl _ Block.q fun _ => rfl
  have hqt : ∀ j, (getB (NewtonSe.setR diag u v x) j).qt = (getB x j).qt := getB_modify_keep hl _ Block.qt fun _ => rfl
  refine ⟨by simp [NewtonSe.setR, h.len], fun j hj => ?_, h.rhs, fun j hj => ?_, fun j hj => ?_, fun j hj hm => ?_, ?_, ?_⟩
  · rw [hne j (fun e => hj (e ▸ hd)), h.other j hj]
  · rw [hqt, h.qt j hj]
  · by_cases e : j = diag
    · subst e
      rw [hself, if_pos ⟨rfl, rfl⟩]
      have := h.r j hj
      rw [if_neg (by simp)] at this
      simp only [this]
      rfl
    · rw [hne j e, h.r j hj, if_neg (fun h => e h.1), if_neg (fun h => e h.1)]
  · rw [hq, h.fill j hj hm]
  · rw [← h.first]
    unfold defect1
    simp only [hg]
    rfl
  · rw [← h.second]
    unfold defect2
    simp only [hq]
    rfl

/-- What the start of an entry adds. -/
noncomputable def startTerm (N : SeNet s) (M : Measured s) (x : Nat → Polar s) (d : Nat → QV s) (row k : Nat) : QV s :=
  if row = colOf N.S k then voltageTerm N M x d row else 0

/-- What the elements of an entry add. -/
noncomputable def elemsTerm (N : SeNet s) (M : Measured s) (x : Nat → Polar s) (d : Nat → QV s) (row k : Nat) : QV s :=
  match N.S.mapLuYBus[k]?.getD none with
  | none => 0
  | some dd => ((elementsOf N.S dd).map (elemTerm N.y.param M x d row (colOf N.S k))).sum

/-- What the injection adds at an entry. -/
noncomputable def injTerm (y : CM s) (o : Option (PowerM s)) (x : Nat → Polar s) (d : Nat → QV s) (row col : Nat) : QV s :=
  match o with
  | none => 0
  | some m => injectionRowTerm y x d row col + if row = col then parts m.value else 0

/-- The same for an entry by its number. -/
noncomputable def entryInj (N : SeNet s) (M : Measured s) (x : Nat → Polar s) (d : Nat → QV s) (row k : Nat) : QV s :=
  match N.S.mapLuYBus[k]?.getD none with
  | none => 0
  | some dd => injTerm (N.y.admittance[dd]?.getD 0) (M.injection row) x d row (colOf N.S k)


theorem RowInv.cast {a' b' : QV s} (h : RowInv S row diag d R sys0 K seen a b x) (ha : a = a') (hb : b = b') :
    RowInv S row diag d R sys0 K seen a' b' x := by rw [← ha, ← hb]; exact h

theorem RowInv.offDiagonal {N : SeNet s} {M : Measured s} {pol : Nat → Polar s} (h : RowInv N.S row diag d R sys0 K seen a b x) {k : Nat}
    (hk : k < x.gain.length) (hd : diag < x.gain.length) (hK : k ∉ K) (hD : diag ∈ K) (hcol : colOf N.S diag = row)
    (hm : N.S.mapLuYBus[diag]?.getD none ≠ none) (hne : row ≠ colOf N.S k) :
    RowInv N.S row diag d R sys0 (insert k K) seen (a + (startTerm N M pol d row k + elemsTerm N M pol d row k)) (b + entryInj N M pol d row k)
      (entryStep N M pol row diag x k) := by
  have hkd : k ≠ diag := fun e => hne (by rw [e, hcol])
  have h1 := h.clear hk hK hkd
  have hs : entryStart N M pol row diag x k = clearBlock k x := if_neg hne
  unfold startTerm elemsTerm entryInj entryStep
  rw [if_neg hne, hs]
  cases hmk : N.S.mapLuYBus[k]?.getD none with
  | none => exact h1.cast (by simp) (by simp)
  | some dd =>
    have hlen : (clearBlock k x).gain.length = x.gain.length := by simp [clearBlock]
    have hk' : k ∈ insert k K := Finset.mem_insert_self _ _
    have hd' : diag ∈ insert k K := Finset.mem_insert_of_mem hD
    have e1 : Eff N.S (insert k K) row k diag d _ _ _ _ :=
      eff_elems N.y.param M pol (elementsOf N.S dd) (x := clearBlock k x) (by rw [hlen]; exact hk) (by rw [hlen]; exact hd) hk' hd' hcol
    have hno : N.S.mapLuYBus[k]?.getD none = none → ∀ p : Prop, p := fun e => by rw [hmk] at e; cases e
    have h2 := h1.eff hk' hd' e1 hm fun e => hno e _
    unfold injectionStep injTerm
    cases M.injection row with
    | none =>
      simp only [if_neg hne]
      exact h2.cast (by simp) (by simp)
    | some m =>
      simp only [if_neg hne]
      have hl2 := e1.len.trans hlen
      have e2 : Eff N.S (insert k K) row k diag d _ _ _ _ :=
        eff_injectionRow (N.y.admittance[dd]?.getD 0) pol (by rw [hl2]; exact hk) (by rw [hl2]; exact hd) hk' hd' hcol
      exact (h2.eff hk' hd' e2 hm fun e => hno e _).cast (by simp) (by simp)

theorem RowInv.diagonal {N : SeNet s} {M : Measured s} {pol : Nat → Polar s} (h : RowInv N.S row diag d (rBlock M row) sys0 K false a b x)
    (hd : diag < x.gain.length) (hD : diag ∈ K) (hcol : colOf N.S diag = row) (hm : N.S.mapLuYBus[diag]?.getD none ≠ none) :
    RowInv N.S row diag d (rBlock M row) sys0 K true (a + (startTerm N M pol d row diag + elemsTerm N M pol d row diag))
      (b + entryInj N M pol d row diag) (entryStep N M pol row diag x diag) := by
  have hs : entryStart N M pol row diag x diag = voltageStep N M pol row diag x := if_pos hcol.symm
  have e0 : Eff N.S K row diag diag d x _ _ _ := eff_voltage (N := N) M pol hd hD hcol
  have hno : N.S.mapLuYBus[diag]?.getD none = none → ∀ p : Prop, p := fun e => absurd e hm
  have h1 := h.eff hD hD e0 hm fun e => hno e _
  unfold startTerm elemsTerm entryInj entryStep
  rw [if_pos hcol.symm, hs]
  cases hmk : N.S.mapLuYBus[diag]?.getD none with
  | none => exact absurd hmk hm
  | some dd =>
    have hl1 : diag < (voltageStep N M pol row diag x).gain.length := by rw [e0.len]; exact hd
    have e1 : Eff N.S K row diag diag d _ _ _ _ :=
      eff_elems N.y.param M pol (elementsOf N.S dd) (x := voltageStep N M pol row diag x) hl1 hl1 hD hD hcol
    have h2 := h1.eff hD hD e1 hm fun e => hno e _
    have hl2 := e1.len ▸ hl1
    unfold injectionStep injTerm
    unfold rBlock rDiag at h2 ⊢
    cases hi : M.injection row with
    | none =>
      rw [hi] at h2
      simp only [if_pos hcol.symm]
      exact (h2.setR hD hl2).cast (by abel) (by simp)
    | some m =>
      rw [hi] at h2
      simp only [if_pos hcol.symm]
      have e2 : Eff N.S K row diag diag d _ _ _ _ := eff_injectionRow (N.y.admittance[dd]?.getD 0) pol hl2 hl2 hD hD hcol
      have e3 : Eff N.S K row diag diag d _ _ _ _ := eff_addTau (injectionRow (N.y.admittance[dd]?.getD 0) pol row (colOf N.S diag) diag diag
        ((elementsOf N.S dd).foldl (elemStep N.y.param M pol row (colOf N.S diag) diag diag) (voltageStep N M pol row diag x))) (parts m.value)
      have e23 := e2.trans e3
      have h3 := h2.eff hD hD e23 hm fun e => hno e _
      exact (h3.setR hD (by rw [e23.len]; exact hl2)).cast (by simp; abel) (by simp)

theorem row_init (S : YBus.Structure) (row diag : Nat) (d : Nat → QV s) (R : QM s) (sys : Sys s) (hd : diag < sys.gain.length) :
    RowInv S row diag d R sys {diag} false 0 0 (clearBlock diag (clearRhs row sys)) := by
  have hself : getB (clearBlock diag (clearRhs row sys)) diag = .zero := getB_modify_self (x := clearRhs row sys) hd _
  refine ⟨by simp [clearBlock, clearRhs], fun j hj => ?_, fun r hr => ?_, fun j hj => ?_, fun j hj => ?_, fun j hj _ => ?_, ?_, ?_⟩
  · rw [Finset.mem_singleton] at hj
    exact getB_modify_ne (x := clearRhs row sys) (Ne.symm hj) _
  · exact Function.update_of_ne hr _ _
  · rw [Finset.mem_singleton.mp hj, hself]; rfl
  · rw [Finset.mem_singleton.mp hj, hself, if_neg (by simp)]; rfl
  · rw [Finset.mem_singleton.mp hj, hself]; rfl
  · unfold defect1
    rw [Finset.sum_singleton, hself]
    simp [clearBlock, clearRhs, Block.zero]
  · unfold defect2
    rw [Finset.sum_singleton, hself]
    simp [clearBlock, clearRhs, Block.zero]

theorem row_fold {N : SeNet s} {M : Measured s} {pol : Nat → Polar s} (hd : diag < sys0.gain.length) (hcol : colOf N.S diag = row)
    (hm : N.S.mapLuYBus[diag]?.getD none ≠ none) (l : List Nat) (hnd : l.Nodup) (hl : ∀ k ∈ l, k < sys0.gain.length)
    (huniq : ∀ k ∈ l, colOf N.S k = row → k = diag) (hK : ∀ k ∈ l, k ≠ diag → k ∉ K) (hD : diag ∈ K) (hseen : diag ∈ l → seen = false)
    (h : RowInv N.S row diag d (rBlock M row) sys0 K seen a b x) :
    RowInv N.S row diag d (rBlock M row) sys0 (K ∪ l.toFinset) (seen || decide (diag ∈ l))
      (a + (l.map fun k => startTerm N M pol d row k + elemsTerm N M pol d row k).sum) (b + (l.map (entryInj N M pol d row)).sum)
      (l.foldl (entryStep N M pol row diag) x) := by
  induction l generalizing x K seen a b with
  | nil => simpa using h
  | cons k l ih =>
    rw [List.nodup_cons] at hnd
    rw [List.foldl_cons, List.map_cons, List.sum_cons, List.map_cons, List.sum_cons]
    have hkl : k < x.gain.length := by rw [h.len]; exact hl k (by simp)
    have hdl : diag < x.gain.length := by rw [h.len]; exact hd
    by_cases hk : k = diag
    · subst hk
      have hs := hseen (by simp)
      subst hs
      have h1 := h.diagonal (pol := pol) hdl hD hcol hm
      have h2 := ih hnd.2 (fun k hk => hl k (by simp [hk])) (fun k hk => huniq k (by simp [hk])) (fun k hk => hK k (by simp [hk])) hD
        (fun e => absurd e hnd.1) h1
      have e1 : K ∪ (k :: l).toFinset = K ∪ l.toFinset := by
        rw [List.toFinset_cons, Finset.union_insert, Finset.insert_eq_of_mem (Finset.mem_union_left _ hD)]
      have e2 : (false || decide (k ∈ k :: l)) = (true || decide (k ∈ l)) := by simp
      rw [e1, e2]
      exact h2.cast (by abel) (by abel)
    · have hne : row ≠ colOf N.S k := fun e => hk (huniq k (by simp) e.symm)
      have h1 := h.offDiagonal (M := M) (pol := pol) hkl hdl (hK k (by simp) hk) hD hcol hm hne
      have h2 := ih hnd.2 (fun k hk => hl k (by simp [hk])) (fun k hk => huniq k (by simp [hk])) (fun j hj hjd => ?_)
        (Finset.mem_insert_of_mem hD) (fun e => hseen (by simp [e])) h1
      · have e1 : K ∪ (k :: l).toFinset = insert k K ∪ l.toFinset := by
          rw [List.toFinset_cons, Finset.union_insert, Finset.insert_union]
        have e2 : (seen || decide (diag ∈ k :: l)) = (seen || decide (diag ∈ l)) := by
          simp [Ne.symm hk]
        rw [e1, e2]
        exact h2.cast (by abel) (by abel)
      · rw [Finset.mem_insert, not_or]
        exact ⟨fun e => hnd.1 (e ▸ hj), hK j (by simp [hj]) hjd⟩

/-! ## All rows -/

/-- What the equations of a row are after the loop over the rows. -/
structure RowDone (N : SeNet s) (M : Measured s) (pol : Nat → Polar s) (d : Nat → QV s) (row : Nat) (x : Sys s) : Prop where
  qt : ∀ k, k ∈ rowEntries N.S row → (getB x k).qt = 0
  r : ∀ k, k ∈ rowEntries N.S row → (getB x k).r = if colOf N.S k = row then rBlock M row else 0
  fill : ∀ k, k ∈ rowEntries N.S row → N.S.mapLuYBus[k]?.getD none = none → (getB x k).q = 0
  first : defect1 N.S (rowEntries N.S row).toFinset row d x =
    ((rowEntries N.S row).map fun k => startTerm N M pol d row k + elemsTerm N M pol d row k).sum
  second : defect2 N.S (rowEntries N.S row).toFinset row d x = ((rowEntries N.S row).map (entryInj N M pol d row)).sum

theorem colOf_entry {S : YBus.Structure} {r c k : Nat} (h : EntryAt S.rowIndptrLu S.colIndicesLu r c k) : colOf S k = c := by
  obtain ⟨_, _, _, _, _, _, h⟩ := h
  unfold colOf
  rw [h]
  rfl

/-- The structure of a valid island. -/
theorem net_structure {N : SeNet s} (hN : N.Valid) : IsStructure N.T N.S := by
  obtain ⟨S, hS, I⟩ := structure_correct hN.topo
  rw [hN.structure_] at hS
  exact Option.some.inj hS ▸ I

theorem mem_entries {N : SeNet s} (hN : N.Valid) {r k : Nat} (hr : r < N.T.nBus) :
    k ∈ rowEntries N.S r ↔ EntryAt N.S.rowIndptrLu N.S.colIndicesLu r (colOf N.S k) k := by
  unfold rowEntries
  rw [mem_row (net_structure hN).lu hr]
  constructor
  · rintro ⟨_, c, h⟩
    rw [colOf_entry h]
    exact h
  · intro h
    refine ⟨?_, _, h⟩
    obtain ⟨_, _, _, _, _, _, h⟩ := h
    exact (List.getElem?_eq_some_iff.mp h).1

theorem entries_nodup (S : YBus.Structure) (r : Nat) : (rowEntries S r).Nodup := List.nodup_range'

theorem entries_lt {N : SeNet s} (hN : N.Valid) {r k : Nat} (hr : r < N.T.nBus) (h : k ∈ rowEntries N.S r) : k < N.S.colIndicesLu.length := by
  obtain ⟨_, _, _, _, _, _, h⟩ := (mem_entries hN hr).mp h
  exact (List.getElem?_eq_some_iff.mp h).1

theorem diag_entry {N : SeNet s} (hN : N.Valid) {r : Nat} (hr : r < N.T.nBus) :
    EntryAt N.S.rowIndptrLu N.S.colIndicesLu r r (N.S.diagLu[r]?.getD 0) := by
  obtain ⟨k, h1, h2⟩ := (net_structure hN).diag.2 r hr
  rw [h1]
  exact h2

theorem col_unique {N : SeNet s} (hN : N.Valid) {r j k : Nat} (hr : r < N.T.nBus) (hj : j ∈ rowEntries N.S r) (hk : k ∈ rowEntries N.S r)
    (h : colOf N.S j = colOf N.S k) : j = k := by
  have h1 := (mem_entries hN hr).mp hj
  have h2 := (mem_entries hN hr).mp hk
  rw [h] at h1
  exact PowerFlow.entry_unique (net_structure hN).lu h1 h2

theorem row_done {N : SeNet s} (hN : N.Valid) (M : Measured s) (pol : Nat → Polar s) {r : Nat} (hr : r < N.T.nBus) (x : Sys s)
    (hx : x.gain.length = N.S.colIndicesLu.length) :
    (rowStep N M pol x r).gain.length = x.gain.length ∧ (∀ k, k ∉ rowEntries N.S r → getB (rowStep N M pol x r) k = getB x k) ∧
    (∀ r', r' ≠ r → (rowStep N M pol x r).rhs r' = x.rhs r') ∧ ∀ d, RowDone N M pol d r (rowStep N M pol x r) := by
  have hde := diag_entry hN hr
  have hcol := colOf_entry hde
  have hdm : N.S.diagLu[r]?.getD 0 ∈ rowEntries N.S r := by rw [mem_entries hN hr, hcol]; exact hde
  have hdl : N.S.diagLu[r]?.getD 0 < x.gain.length := by rw [hx]; exact entries_lt hN hr hdm
  have hm : N.S.mapLuYBus[N.S.diagLu[r]?.getD 0]?.getD none ≠ none := by
    obtain ⟨k', h1, _⟩ := ((net_structure hN).map.2 r r _ hde).1 (Or.inl rfl)
    rw [h1]
    simp
  have key : ∀ d : Nat → QV s, RowInv N.S r (N.S.diagLu[r]?.getD 0) d (rBlock M r) x (rowEntries N.S r).toFinset true
      ((rowEntries N.S r).map fun k => startTerm N M pol d r k + elemsTerm N M pol d r k).sum
      ((rowEntries N.S r).map (entryInj N M pol d r)).sum (rowStep N M pol x r) := by
    intro d
    have h := row_fold (M := M) (pol := pol) hdl hcol hm (rowEntries N.S r) (entries_nodup N.S r) (fun k hk => by rw [hx]; exact entries_lt hN hr hk)
      (fun k hk e => col_unique hN hr hk hdm (e.trans hcol.symm)) (fun k _ hne => by rw [Finset.mem_singleton]; exact hne)
      (Finset.mem_singleton_self _) (fun _ => rfl) (row_init N.S r _ d (rBlock M r) x hdl)
    have e : ({N.S.diagLu[r]?.getD 0} : Finset Nat) ∪ (rowEntries N.S r).toFinset = (rowEntries N.S r).toFinset :=
      Finset.union_eq_right.mpr (by rw [Finset.singleton_subset_iff, List.mem_toFinset]; exact hdm)
    rw [e, decide_eq_true hdm] at h
    exact h.cast (zero_add _) (zero_add _)
  have k0 := key fun _ => 0
  refine ⟨k0.len, fun k hk => k0.other k (by rw [List.mem_toFinset]; exact hk), k0.rhs, fun d => ⟨fun k hk => ?_, fun k hk => ?_, fun k hk => ?_, (key d).first, (key d).second⟩⟩
  · exact k0.qt k (List.mem_toFinset.mpr hk)
  · rw [k0.r k (List.mem_toFinset.mpr hk)]
    by_cases e : colOf N.S k = r
    · rw [if_pos e, if_pos ⟨col_unique hN hr hk hdm (e.trans hcol.symm), rfl⟩]
    · rw [if_neg e, if_neg]
      rintro ⟨e', _⟩
      exact e (by rw [e', hcol])
  · exact k0.fill k (List.mem_toFinset.mpr hk)

theorem entries_disjoint {N : SeNet s} (hN : N.Valid) {r r' k : Nat} (hr : r < N.T.nBus) (hr' : r' < N.T.nBus) (h : k ∈ rowEntries N.S r)
    (h' : k ∈ rowEntries N.S r') : r = r' :=
  (PGM.Observability.entry_unique (net_structure hN).lu ((mem_entries hN hr).mp h) ((mem_entries hN hr').mp h')).1

theorem RowDone.congr {N : SeNet s} {M : Measured s} {pol : Nat → Polar s} {d : Nat → QV s} {row : Nat} {x y : Sys s}
    (h : RowDone N M pol d row x) (hb : ∀ k, k ∈ rowEntries N.S row → getB y k = getB x k) (hr : y.rhs row = x.rhs row) :
    RowDone N M pol d row y := by
  refine ⟨fun k hk => by rw [hb k hk, h.qt k hk], fun k hk => by rw [hb k hk, h.r k hk], fun k hk e => by rw [hb k hk, h.fill k hk e], ?_, ?_⟩
  · rw [← h.first]
    unfold defect1
    rw [hr]
    congr 1
    exact Finset.sum_congr rfl fun k hk => by rw [hb k (List.mem_toFinset.mp hk)]
  · rw [← h.second]
    unfold defect2
    rw [hr]
    congr 1
    exact Finset.sum_congr rfl fun k hk => by rw [hb k (List.mem_toFinset.mp hk)]

theorem rows_done {N : SeNet s} (hN : N.Valid) (M : Measured s) (pol : Nat → Polar s) (x : Sys s)
    (hx : x.gain.length = N.S.colIndicesLu.length) (n : Nat) (hn : n ≤ N.T.nBus) :
    ((List.range n).foldl (rowStep N M pol) x).gain.length = x.gain.length ∧
    ∀ r, r < n → ∀ d, RowDone N M pol d r ((List.range n).foldl (rowStep N M pol) x) := by
  induction n with
  | zero => exact ⟨rfl, fun r hr => absurd hr (Nat.not_lt_zero r)⟩
  | succ n ih =>
    obtain ⟨h1, h2⟩ := ih (by omega)
    rw [List.range_succ, List.foldl_append, List.foldl_cons, List.foldl_nil]
    obtain ⟨g1, g2, g3, g4⟩ := row_done hN M pol (r := n) (by omega) _ (h1.trans hx)
    refine ⟨g1.trans h1, fun r hr d => ?_⟩
    by_cases e : r = n
    · subst e; exact g4 d
    · refine (h2 r (by omega) d).congr (fun k hk => g2 k fun hk' => e ?_) (g3 r e)
      exact entries_disjoint hN (by omega) (by omega) hk hk'

/-! ## The transposed blocks and the multipliers -/

/-- The same system but for the second quarters of the blocks. -/
structure SameButQt (x y : Sys s) : Prop where
  len : y.gain.length = x.gain.length
  rhs : y.rhs = x.rhs
  g : ∀ j, (getB y j).g = (getB x j).g
  q : ∀ j, (getB y j).q = (getB x j).q
  r : ∀ j, (getB y j).r = (getB x j).r

theorem SameButQt.refl (x : Sys s) : SameButQt x x := ⟨rfl, rfl, fun _ => rfl, fun _ => rfl, fun _ => rfl⟩

theorem SameButQt.trans {x y z : Sys s} (h : SameButQt x y) (h' : SameButQt y z) : SameButQt x z :=
  ⟨h'.len.trans h.len, h'.rhs.trans h.rhs, fun j => (h'.g j).trans (h.g j), fun j => (h'.q j).trans (h.q j), fun j => (h'.r j).trans (h.r j)⟩

theorem getQ (x : Sys s) (t : Nat) : (x.gain[t]?.map Block.q).getD 0 = (getB x t).q := by
  unfold getB
  cases x.gain[t]? <;> rfl

theorem getQt (x : Sys s) (t : Nat) : (x.gain[t]?.map Block.qt).getD 0 = (getB x t).qt := by
  unfold getB
  cases x.gain[t]? <;> rfl

theorem fillQt_spec (S : YBus.Structure) (row k : Nat) (x : Sys s) (hk : k < x.gain.length) :
    SameButQt x (fillQt S row k x) ∧ (getB (fillQt S row k x) k).qt = ((getB x (S.transposeEntry[k]?.getD 0)).q).transpose ∧
    ∀ j, j ≠ k → (getB (fillQt S row k x) j).qt = (getB x j).qt := by
  unfold fillQt
  simp only [getQ]
  refine ⟨⟨by simp, rfl, getB_modify_keep hk _ Block.g fun _ => rfl, getB_modify_keep hk _ Block.q fun _ => rfl,
    getB_modify_keep hk _ Block.r fun _ => rfl⟩, ?_, fun j hj => ?_⟩
  · rw [getB_modify_self hk]
  · rw [getB_modify_ne (Ne.symm hj)]

theorem fillRow_spec (S : YBus.Structure) (row : Nat) (l : List Nat) (x : Sys s) (hl : ∀ k ∈ l, k < x.gain.length) :
    SameButQt x (l.foldl (skipFills S (fillQt S) row) x) ∧
    (∀ k, k ∈ l → S.mapLuYBus[k]?.getD none ≠ none →
      (getB (l.foldl (skipFills S (fillQt S) row) x) k).qt = ((getB x (S.transposeEntry[k]?.getD 0)).q).transpose) ∧
    (∀ k, k ∉ l ∨ S.mapLuYBus[k]?.getD none = none → (getB (l.foldl (skipFills S (fillQt S) row) x) k).qt = (getB x k).qt) := by
  induction l using List.reverseRecOn with
  | nil => exact ⟨SameButQt.refl x, fun k hk => absurd hk (by simp), fun _ _ => rfl⟩
  | append_singleton l k ih =>
    obtain ⟨h1, h2, h3⟩ := ih fun k hk => hl k (by simp [hk])
    rw [List.foldl_append, List.foldl_cons, List.foldl_nil]
    have hk := hl k (by simp)
    unfold skipFills
    cases hm : S.mapLuYBus[k]?.getD none with
    | none =>
      refine ⟨h1, fun j hj hn => ?_, fun j hj => ?_⟩
      · rcases List.mem_append.mp hj with h | h
        · exact h2 j h hn
        · rw [List.mem_singleton.mp h] at hn; exact absurd hm hn
      · rcases hj with h | h
        · exact h3 j (Or.inl fun h' => h (by simp [h']))
        · exact h3 j (Or.inr h)
    | some dd =>
      obtain ⟨g1, g2, g3⟩ := fillQt_spec S row k (l.foldl (skipFills S (fillQt S) row) x) (by rw [h1.len]; exact hk)
      refine ⟨h1.trans g1, fun j hj hn => ?_, fun j hj => ?_⟩
      · by_cases e : j = k
        · subst e
          exact g2.trans (by rw [h1.q])
        · refine (g3 j e).trans ?_
          exact h2 j ((List.mem_append.mp hj).resolve_right (by simp [e])) hn
      · have e : j ≠ k := by
          rintro rfl
          rcases hj with h | h
          · exact h (by simp)
          · rw [hm] at h; cases h
        refine (g3 j e).trans ?_
        rcases hj with h | h
        · exact h3 j (Or.inl fun h' => h (by simp [h']))
        · exact h3 j (Or.inr h)

theorem fillRows_spec {N : SeNet s} (hN : N.Valid) (x : Sys s) (hx : x.gain.length = N.S.colIndicesLu.length) (n : Nat) (hn : n ≤ N.T.nBus) :
    SameButQt x ((List.range n).foldl (fun sys row => (rowEntries N.S row).foldl (skipFills N.S (fillQt N.S) row) sys) x) ∧
    (∀ r, r < n → ∀ k, k ∈ rowEntries N.S r → N.S.mapLuYBus[k]?.getD none ≠ none →
      (getB ((List.range n).foldl (fun sys row => (rowEntries N.S row).foldl (skipFills N.S (fillQt N.S) row) sys) x) k).qt =
        ((getB x (N.S.transposeEntry[k]?.getD 0)).q).transpose) ∧
    (∀ k, N.S.mapLuYBus[k]?.getD none = none →
      (getB ((List.range n).foldl (fun sys row => (rowEntries N.S row).foldl (skipFills N.S (fillQt N.S) row) sys) x) k).qt = (getB x k).qt) := by
  induction n with
  | zero => exact ⟨SameButQt.refl x, fun r hr => absurd hr (Nat.not_lt_zero r), fun _ _ => rfl⟩
  | succ n ih =>
    obtain ⟨h1, h2, h3⟩ := ih (by omega)
    rw [List.range_succ, List.foldl_append, List.foldl_cons, List.foldl_nil]
    obtain ⟨g1, g2, g3⟩ := fillRow_spec N.S n (rowEntries N.S n)
      ((List.range n).foldl (fun sys row => (rowEntries N.S row).foldl (skipFills N.S (fillQt N.S) row) sys) x)
      (fun k hk => by rw [h1.len, hx]; exact entries_lt hN (by omega) hk)
    refine ⟨h1.trans g1, fun r hr k hk hm => ?_, fun k hm => (g3 k (Or.inr hm)).trans (h3 k hm)⟩
    by_cases e : r = n
    · subst e
      rw [g2 k hk hm, h1.q]
    · rw [g3 k (Or.inl fun hk' => e (entries_disjoint hN (by omega) (by omega) hk hk'))]
      exact h2 r (by omega) k hk hm

theorem multRow_spec (S : YBus.Structure) (phi : Nat → QV s) (row : Nat) (l : List Nat) (x : Sys s)
    (hf : ∀ k ∈ l, S.mapLuYBus[k]?.getD none = none → (getB x k).qt = 0) :
    (l.foldl (skipFills S (addMultiplier S phi) row) x).gain = x.gain ∧
    (∀ r, r ≠ row → (l.foldl (skipFills S (addMultiplier S phi) row) x).rhs r = x.rhs r) ∧
    ((l.foldl (skipFills S (addMultiplier S phi) row) x).rhs row).tau = (x.rhs row).tau ∧
    ((l.foldl (skipFills S (addMultiplier S phi) row) x).rhs row).eta = (x.rhs row).eta + (l.map fun k => (getB x k).qt.mulVec (phi (colOf S k))).sum := by
  induction l using List.reverseRecOn with
  | nil => simp
  | append_singleton l k ih =>
    obtain ⟨h1, h2, h3, h4⟩ := ih fun k hk => hf k (by simp [hk])
    rw [List.foldl_append, List.foldl_cons, List.foldl_nil, List.map_append, List.sum_append, ← add_assoc, ← h4]
    simp only [List.map_cons, List.map_nil, List.sum_cons, List.sum_nil, add_zero]
    have hb : getB (l.foldl (skipFills S (addMultiplier S phi) row) x) k = getB x k := by
      unfold getB
      rw [h1]
    generalize l.foldl (skipFills S (addMultiplier S phi) row) x = y at h1 h2 h3 h4 hb
    unfold skipFills
    cases hm : S.mapLuYBus[k]?.getD none with
    | none =>
      refine ⟨h1, h2, h3, ?_⟩
      rw [hf k (by simp) hm]
      simp
    | some dd =>
      simp only [addMultiplier, addEta, getQt, hb]
      refine ⟨h1, fun r hr => ?_, ?_, ?_⟩
      · rw [Function.update_of_ne hr]
        exact h2 r hr
      · rw [Function.update_self]
        exact h3
      · rw [Function.update_self]

theorem multRows_spec (S : YBus.Structure) (phi : Nat → QV s) (x : Sys s) (n : Nat)
    (hf : ∀ r, r < n → ∀ k ∈ rowEntries S r, S.mapLuYBus[k]?.getD none = none → (getB x k).qt = 0) :
    ((List.range n).foldl (fun sys row => (rowEntries S row).foldl (skipFills S (addMultiplier S phi) row) sys) x).gain = x.gain ∧
    (∀ r, n ≤ r → ((List.range n).foldl (fun sys row => (rowEntries S row).foldl (skipFills S (addMultiplier S phi) row) sys) x).rhs r = x.rhs r) ∧
    ∀ r, r < n → (((List.range n).foldl (fun sys row => (rowEntries S row).foldl (skipFills S (addMultiplier S phi) row) sys) x).rhs r).tau =
        (x.rhs r).tau ∧
      (((List.range n).foldl (fun sys row => (rowEntries S row).foldl (skipFills S (addMultiplier S phi) row) sys) x).rhs r).eta =
        (x.rhs r).eta + ((rowEntries S r).map fun k => (getB x k).qt.mulVec (phi (colOf S k))).sum := by
  induction n with
  | zero => exact ⟨rfl, fun _ _ => rfl, fun r hr => absurd hr (Nat.not_lt_zero r)⟩
  | succ n ih =>
    obtain ⟨h1, h2, h3⟩ := ih fun r hr => hf r (by omega)
    rw [List.range_succ, List.foldl_append, List.foldl_cons, List.foldl_nil]
    generalize (List.range n).foldl (fun sys row => (rowEntries S row).foldl (skipFills S (addMultiplier S phi) row) sys) x = y at h1 h2 h3
    have hb : ∀ k, getB y k = getB x k := fun k => by unfold getB; rw [h1]
    obtain ⟨g1, g2, g3, g4⟩ := multRow_spec S phi n (rowEntries S n) y fun k hk hm => by rw [hb]; exact hf n (by omega) k hk hm
    refine ⟨g1.trans h1, fun r hr => (g2 r (by omega)).trans (h2 r (by omega)), fun r hr => ?_⟩
    by_cases e : r = n
    · subst e
      rw [g3, g4, h2 r (le_refl r)]
      simp only [hb, and_self]
    · rw [g2 r e]
      exact h3 r (by omega)

/-- The equations of an iteration, in terms of what remains for a change. -/
structure Prepared (N : SeNet s) (M : Measured s) (st : State s) (x : Sys s) : Prop where
  len : x.gain.length = N.S.colIndicesLu.length
  r : ∀ r, r < N.T.nBus → ∀ k, k ∈ rowEntries N.S r → (getB x k).r = if colOf N.S k = r then rBlock M r else 0
  qt : ∀ r, r < N.T.nBus → ∀ k, k ∈ rowEntries N.S r → (getB x k).qt = ((getB x (N.S.transposeEntry[k]?.getD 0)).q).transpose
  first : ∀ r, r < N.T.nBus → ∀ d, defect1 N.S (rowEntries N.S r).toFinset r d x =
    ((rowEntries N.S r).map fun k => startTerm N M st.x d r k + elemsTerm N M st.x d r k).sum +
      ((rowEntries N.S r).map fun k => (getB x k).qt.mulVec (st.phi (colOf N.S k))).sum
  second : ∀ r, r < N.T.nBus → ∀ d, defect2 N.S (rowEntries N.S r).toFinset r d x = ((rowEntries N.S r).map (entryInj N M st.x d r)).sum

theorem prepared {N : SeNet s} (hN : N.Valid) (M : Measured s) (st : State s) (old : Sys s) (hold : old.gain.length = N.S.colIndicesLu.length) :
    Prepared N M st (prepare N M st old) := by
  obtain ⟨h1, h2⟩ := rows_done hN M st.x old hold N.T.nBus (le_refl _)
  unfold prepare iterateMatrix
  generalize (List.range N.T.nBus).foldl (rowStep N M st.x) old = a at h1 h2
  obtain ⟨g1, g2, g3⟩ := fillRows_spec hN a (h1.trans hold) N.T.nBus (le_refl _)
  generalize (List.range N.T.nBus).foldl (fun sys row => (rowEntries N.S row).foldl (skipFills N.S (fillQt N.S) row) sys) a = b at g1 g2 g3
  have hfill : ∀ r, r < N.T.nBus → ∀ k ∈ rowEntries N.S r, N.S.mapLuYBus[k]?.getD none = none → (getB b k).qt = 0 := fun r hr k hk hm => by
    rw [g3 k hm, (h2 r hr fun _ => 0).qt k hk]
  obtain ⟨m1, m2, m3⟩ := multRows_spec N.S st.phi b N.T.nBus hfill
  generalize (List.range N.T.nBus).foldl (fun sys row => (rowEntries N.S row).foldl (skipFills N.S (addMultiplier N.S st.phi) row) sys) b = c at m1 m2 m3
  have hb : ∀ k, getB c k = getB b k := fun k => by unfold getB; rw [m1]
  have I := net_structure hN
  refine ⟨by rw [m1, g1.len, h1, hold], fun r hr k hk => ?_, fun r hr k hk => ?_, fun r hr d => ?_, fun r hr d => ?_⟩
  · rw [hb, g1.r, (h2 r hr fun _ => 0).r k hk]
  · rw [hb, hb, g1.q]
    by_cases hm : N.S.mapLuYBus[k]?.getD none = none
    · rw [hfill r hr k hk hm]
      have he := (mem_entries hN hr).mp hk
      obtain ⟨k', e1, e2⟩ := I.transpose.2 _ _ _ he
      rw [e1]
      have hnot : ¬ InY N.T r (colOf N.S k) := fun hy => by
        obtain ⟨_, e, _⟩ := (I.map.2 _ _ _ he).1 hy
        rw [e] at hm
        cases hm
      have hc : colOf N.S k < N.T.nBus := by
        obtain ⟨_, _, _, h, _⟩ := e2
        have := (List.getElem?_eq_some_iff.mp h).1
        rw [I.lu.len] at this
        omega
      have hk' : k' ∈ rowEntries N.S (colOf N.S k) := by
        rw [mem_entries hN hc, colOf_entry e2]
        exact e2
      have hm' : N.S.mapLuYBus[k']?.getD none = none := by
        rw [(I.map.2 _ _ _ e2).2 fun h => hnot (inY_symm h)]
        rfl
      have := (h2 _ hc fun _ => 0).fill k' hk' hm'
      rw [Option.getD_some, this, transpose_zero]
    · exact g2 r hr k hk hm
  · have := (h2 r hr d).first
    unfold defect1 at this ⊢
    rw [(m3 r hr).2, g1.rhs]
    simp only [hb, g1.g]
    rw [← this]
    abel
  · have := (h2 r hr d).second
    unfold defect2 at this ⊢
    rw [(m3 r hr).1, g1.rhs]
    simp only [hb, g1.q]
    exact this

end PGM.NewtonSe
