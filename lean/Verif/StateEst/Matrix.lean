import Verif.StateEst.Optimal

/-!
# The gain matrix that the solver factorises, and its solutions

Lemmas for C52.
-/

namespace PGM.StateEst

open PGM.YBus PGM.Lu PGM.PowerFlow Matrix

variable {s : Symm}

/-! ## Filling the vector -/

theorem fold_set_range {A : Type} (f : Nat → A) (l : List Nat) (data : List A) :
    (l.foldl (fun data k => data.set k (f k)) data).length = data.length ∧
    ∀ k, k < data.length → (l.foldl (fun data k => data.set k (f k)) data)[k]? = if k ∈ l then some (f k) else data[k]? := by
  induction l generalizing data with
  | nil => simp
  | cons a l ih =>
    rw [List.foldl_cons]
    obtain ⟨h1, h2⟩ := ih (data.set a (f a))
    refine ⟨by rw [h1]; simp, fun k hk => ?_⟩
    rw [h2 k (by simpa using hk)]
    by_cases hm : k ∈ l
    · rw [if_pos hm, if_pos (List.mem_cons_of_mem _ hm)]
    · rw [if_neg hm]
      by_cases ha : a = k
      · subst ha
        rw [List.getElem?_set_self hk, if_pos (List.mem_cons_self ..)]
      · rw [List.getElem?_set_ne ha, if_neg]
        rw [List.mem_cons, not_or]
        exact ⟨fun e => ha e.symm, hm⟩

theorem mem_row {ip cols : List Nat} {n : Nat} {pat : Nat → Nat → Prop} (I : IsCsr n ip cols pat) {r k : Nat} (hr : r < n) :
    k ∈ List.range' (ip[r]?.getD 0) (ip[r + 1]?.getD 0 - ip[r]?.getD 0) ↔ k < cols.length ∧ ∃ c, EntryAt ip cols r c k := by
  obtain ⟨a, z, ha, hz, haz⟩ := I.mono r hr
  rw [ha, hz]
  simp only [Option.getD_some, List.mem_range'_1]
  constructor
  · rintro ⟨h1, h2⟩
    have hzl : z ≤ cols.length := by
      obtain ⟨d, hd⟩ : ∃ d, n = r + 1 + d := ⟨n - (r + 1), by omega⟩
      have hl := I.last
      rw [hd] at hl
      exact Lu.ptr_mono I d (r + 1) z cols.length hz hl (by omega)
    have hk : k < cols.length := by omega
    exact ⟨hk, cols[k], a, z, ha, hz, h1, by omega, List.getElem?_eq_getElem hk⟩
  · rintro ⟨_, c, a', z', ha', hz', h1, h2, _⟩
    rw [ha] at ha'
    rw [hz] at hz'
    cases ha'
    cases hz'
    omega

theorem gainRow_get {T : Topo} {S : YBus.Structure} (I : IsCsr T.nBus S.rowIndptrLu S.colIndicesLu (InLu T)) (y : YBus (CM s)) (M : Measured s)
    (data : List (Gain s)) (hl : data.length = S.colIndicesLu.length) {r : Nat} (hr : r < T.nBus) :
    (gainRow S y M data r).length = data.length ∧
    (∀ c k, EntryAt S.rowIndptrLu S.colIndicesLu r c k → (gainRow S y M data r)[k]? = some (gainBlock S y M r k)) ∧
    ∀ k, k < data.length → (¬ ∃ c, EntryAt S.rowIndptrLu S.colIndicesLu r c k) → (gainRow S y M data r)[k]? = data[k]? := by
  unfold gainRow
  obtain ⟨h1, h2⟩ := fold_set_range (gainBlock S y M r)
    (List.range' (S.rowIndptrLu[r]?.getD 0) (S.rowIndptrLu[r + 1]?.getD 0 - S.rowIndptrLu[r]?.getD 0)) data
  refine ⟨h1, fun c k hk => ?_, fun k hk hne => ?_⟩
  · have hkl : k < S.colIndicesLu.length := by
      obtain ⟨_, _, _, _, _, _, h⟩ := hk
      exact (List.getElem?_eq_some_iff.mp h).1
    rw [h2 k (by omega), if_pos ((mem_row I hr).mpr ⟨hkl, c, hk⟩)]
  · rw [h2 k hk, if_neg]
    intro hm
    exact hne ((mem_row I hr).mp hm).2

theorem rows_get {T : Topo} {S : YBus.Structure} (I : IsCsr T.nBus S.rowIndptrLu S.colIndicesLu (InLu T)) (y : YBus (CM s)) (M : Measured s)
    (data : List (Gain s)) (hl : data.length = S.colIndicesLu.length) (n : Nat) (hn : n ≤ T.nBus) :
    ((List.range n).foldl (gainRow S y M) data).length = data.length ∧
    ∀ r c k, r < n → EntryAt S.rowIndptrLu S.colIndicesLu r c k →
      ((List.range n).foldl (gainRow S y M) data)[k]? = some (gainBlock S y M r k) := by
  induction n with
  | zero => exact ⟨rfl, fun r c k hr => by omega⟩
  | succ n ih =>
    obtain ⟨h1, h2⟩ := ih (by omega)
    rw [List.range_succ, List.foldl_append]
    simp only [List.foldl_cons, List.foldl_nil]
    obtain ⟨g1, g2, g3⟩ := gainRow_get I y M _ (h1.trans hl) (show n < T.nBus by omega)
    refine ⟨g1.trans h1, fun r c k hr hk => ?_⟩
    by_cases hrn : r = n
    · subst hrn
      exact g2 c k hk
    · have hkl : k < S.colIndicesLu.length := by
        obtain ⟨_, _, _, _, _, _, h⟩ := hk
        exact (List.getElem?_eq_some_iff.mp h).1
      rw [g3 k (by omega), h2 r c k (by omega) hk]
      rintro ⟨c', hc'⟩
      exact hrn (csr_row_unique I (by omega) (by omega) hk hc').1

/-- The second loop, after some entries. -/
theorem qh_get {S : YBus.Structure} (data : List (Gain s)) (n : Nat) (hn : n ≤ data.length) :
    ((List.range n).foldl (fillQh S) data).length = data.length ∧
    ∀ k, k < data.length →
      (((List.range n).foldl (fillQh S) data)[k]?.map Gain.q = data[k]?.map Gain.q) ∧
      ((List.range n).foldl (fillQh S) data)[k]? =
        if k < n ∧ (S.mapLuYBus[k]?.getD none).isSome then
          data[k]?.map fun b => { b with qh := ((data[S.transposeEntry[k]?.getD 0]?.map Gain.q).getD 0).conjTranspose }
        else data[k]? := by
  induction n with
  | zero => simp
  | succ n ih =>
    obtain ⟨h1, h2⟩ := ih (by omega)
    rw [List.range_succ, List.foldl_append]
    simp only [List.foldl_cons, List.foldl_nil]
    set cur := (List.range n).foldl (fillQh S) data with hcur
    have hq : ∀ t : Nat, cur[t]?.map Gain.q = data[t]?.map Gain.q := by
      intro t
      by_cases ht : t < data.length
      · exact (h2 t ht).1
      · rw [List.getElem?_eq_none (by omega), List.getElem?_eq_none (by omega)]
    unfold fillQh
    cases hmap : S.mapLuYBus[n]?.getD none with
    | none =>
      refine ⟨h1, fun k hk => ⟨hq k, ?_⟩⟩
      simp only
      rw [(h2 k hk).2]
      by_cases hkn : k = n
      · subst hkn
        rw [if_neg (by omega), if_neg]
        rw [hmap]
        simp
      · have : (k < n + 1) = (k < n) := by rw [eq_iff_iff]; omega
        simp only [this]
    | some d =>
      simp only
      refine ⟨by rw [List.length_modify, h1], fun k hk => ?_⟩
      rw [List.getElem?_modify]
      by_cases hkn : n = k
      · subst hkn
        have hc : cur[n]? = data[n]? := by rw [(h2 n hk).2, if_neg (by omega)]
        have hd : data[n]? = some data[n] := List.getElem?_eq_getElem hk
        have ht : n < n + 1 ∧ (S.mapLuYBus[n]?.getD none).isSome := ⟨by omega, by rw [hmap]; rfl⟩
        rw [if_pos ht, hc, hd, hq]
        simp
      · have : (k < n + 1) = (k < n) := by rw [eq_iff_iff]; omega
        simp only [this, hkn, if_false]
        rw [← (h2 k hk).2]
        exact ⟨by simpa using hq k, by simp⟩

/-- The block at a position. -/
noncomputable def blockAt (T : Topo) (P : Param (CM s)) (M : Measured s) (r c : Nat) : Gain s :=
  ⟨gAt T P M r c, (qAt T P M c r).conjTranspose, qAt T P M r c, if r = c then rAt M r else 0⟩

theorem gainBlock_entry {N : SeNet s} (hN : N.Valid) (M : Measured s) {r c k : Nat} (hr : r < N.T.nBus)
    (hk : EntryAt N.S.rowIndptrLu N.S.colIndicesLu r c k) :
    gainBlock N.S N.y M r k = { blockAt N.T N.y.param M r c with qh := 0 } ∧
    ((N.S.mapLuYBus[k]?.getD none).isSome ↔ InY N.T r c) := by
  obtain ⟨S', hS', I⟩ := structure_correct hN.topo
  rw [hN.structure_] at hS'
  injection hS' with hS'
  rw [← hS'] at I
  have hcol : N.S.colIndicesLu[k]?.getD 0 = c := by
    obtain ⟨_, _, _, _, _, _, h⟩ := hk
    rw [h]
    rfl
  by_cases hY : InY N.T r c
  · obtain ⟨d, hd, hkd⟩ := (I.map.2 r c k hk).1 hY
    refine ⟨?_, by rw [hd]; simp [hY]⟩
    unfold gainBlock
    rw [hd]
    simp only [Option.getD_some]
    rw [gainFold_eq hN.topo hN.structure_ N.y.param M _ hkd, hcol]
    have hadm : N.y.admittance[d]?.getD 0 = nodal N.T N.y.param r c := by
      rw [hN.coherent.value d (entry_elements hN.topo hN.structure_ hkd).1, entry_is_nodal hN.topo hN.structure_ _ hkd]
      rfl
    unfold gainInjection blockAt gAt qAt rAt
    cases M.injection r with
    | none => rfl
    | some m => simp [hadm]
  · refine ⟨?_, by rw [(I.map.2 r c k hk).2 hY]; simp [hY]⟩
    unfold gainBlock
    rw [(I.map.2 r c k hk).2 hY]
    have hne : r ≠ c := fun e => hY (Or.inl e)
    unfold blockAt gAt qAt gainVoltage
    simp only [Option.getD_some, if_neg hne, nodal_zero _ hY, add_zero, ite_self]

theorem inY_symm {T : Topo} {r c : Nat} (h : InY T r c) : InY T c r := by
  rcases h with h | ⟨b, hb, h⟩
  · exact Or.inl h.symm
  · exact Or.inr ⟨b, hb, connects_symm h⟩

/-- **The vector holds the matrix of the equations.** -/
theorem matrix_get {N : SeNet s} (hN : N.Valid) (M : Measured s) (old : List (Gain s)) (hold : old.length = N.S.colIndicesLu.length) :
    (prepareMatrix N.T N.S N.y M old).length = N.S.colIndicesLu.length ∧
    ∀ r c k, r < N.T.nBus → EntryAt N.S.rowIndptrLu N.S.colIndicesLu r c k →
      (prepareMatrix N.T N.S N.y M old)[k]? = some (blockAt N.T N.y.param M r c) := by
  obtain ⟨S', hS', I⟩ := structure_correct hN.topo
  rw [hN.structure_] at hS'
  injection hS' with hS'
  rw [← hS'] at I
  obtain ⟨h1, h2⟩ := rows_get I.lu N.y M old hold N.T.nBus le_rfl
  obtain ⟨g1, g2⟩ := qh_get (S := N.S) ((List.range N.T.nBus).foldl (gainRow N.S N.y M) old) N.S.colIndicesLu.length (by omega)
  unfold prepareMatrix
  refine ⟨by rw [g1, h1, hold], fun r c k hr hk => ?_⟩
  have hkl : k < N.S.colIndicesLu.length := by
    obtain ⟨_, _, _, _, _, _, h⟩ := hk
    exact (List.getElem?_eq_some_iff.mp h).1
  obtain ⟨e1, e2⟩ := gainBlock_entry hN M hr hk
  rw [(g2 k (by omega)).2, h2 r c k hr hk, e1]
  by_cases hY : InY N.T r c
  · rw [if_pos ⟨hkl, e2.mpr hY⟩]
    obtain ⟨k', ht, hk'⟩ := I.transpose.2 r c k hk
    have hc : c < N.T.nBus := inY_range hN.topo hr c hY
    rw [ht]
    simp only [Option.getD_some]
    rw [h2 c r k' hc hk', (gainBlock_entry hN M hc hk').1]
    rfl
  · rw [if_neg (fun h => hY (e2.mp h.2))]
    unfold blockAt qAt
    rw [nodal_zero N.y.param (fun h => hY (inY_symm h))]
    simp

theorem gain_holds {N : SeNet s} (hN : N.Valid) (M : Measured s) (old : List (Gain s)) (hold : old.length = N.S.colIndicesLu.length) :
    Holds (luPattern N.S) N.T.nBus (InLu N.T) (gainData N M old) fun r c => (blockAt N.T N.y.param M r c).toBlk := by
  obtain ⟨h1, h2⟩ := matrix_get hN M old hold
  refine ⟨by unfold gainData; rw [List.length_map, h1]; rfl, fun r c k hr hk => ?_, fun r c hr hc h => ?_⟩
  · unfold gainData
    rw [List.getElem?_map, h2 r c k hr hk]
    rfl
  · have hY : ¬ InY N.T r c := fun h' => h (Or.inl h')
    have hY' : ¬ InY N.T c r := fun h' => hY (inY_symm h')
    have hne : r ≠ c := fun e => hY (Or.inl e)
    show Gain.toBlk _ = 0
    unfold blockAt gAt qAt gainVoltage Gain.toBlk
    simp only [if_neg hne, nodal_zero _ hY, nodal_zero _ hY', add_zero, ite_self, conjTranspose_zero, fromBlocks_zero]
    rfl

/-! ## Solutions -/

theorem toBlk_mulVec (b : Gain s) (x : Fin (s.phases + s.phases) → ℂ) :
    b.toBlk.mulVec x = join (b.g.mulVec (upper x) + b.qh.mulVec (lower x)) (b.q.mulVec (upper x) + b.r.mulVec (lower x)) := by
  unfold Gain.toBlk
  rw [submatrix_mulVec_equiv]
  have : (x ∘ finSumFinEquiv.symm.symm) = Sum.elim (upper x) (lower x) := by
    funext i
    cases i <;> rfl
  rw [this, fromBlocks_mulVec]
  rfl

theorem join_add (a b c d : CV s) : join a b + join c d = join (a + c) (b + d) := by
  funext i
  unfold join
  rw [Pi.add_apply]
  cases finSumFinEquiv.symm i <;> rfl

theorem join_sum {A : Type} (l : Finset A) (f g : A → CV s) : ∑ x ∈ l, join (f x) (g x) = join (∑ x ∈ l, f x) (∑ x ∈ l, g x) := by
  classical
  induction l using Finset.induction with
  | empty =>
    funext i
    unfold join
    simp only [Finset.sum_empty, Pi.zero_apply]
    cases finSumFinEquiv.symm i <;> rfl
  | insert a l ha ih => rw [Finset.sum_insert ha, Finset.sum_insert ha, Finset.sum_insert ha, ih, join_add]

theorem join_inj {a b c d : CV s} : join a b = join c d ↔ a = c ∧ b = d := by
  constructor
  · intro h
    constructor
    · funext p
      have := congrFun h (finSumFinEquiv (Sum.inl p))
      simpa only [join, Equiv.symm_apply_apply, Sum.elim_inl] using this
    · funext p
      have := congrFun h (finSumFinEquiv (Sum.inr p))
      simpa only [join, Equiv.symm_apply_apply, Sum.elim_inr] using this
  · rintro ⟨rfl, rfl⟩
    rfl

theorem upper_join (a b : CV s) : upper (join a b) = a := by funext p; simp only [upper, join, Equiv.symm_apply_apply, Sum.elim_inl]
theorem lower_join (a b : CV s) : lower (join a b) = b := by funext p; simp only [lower, join, Equiv.symm_apply_apply, Sum.elim_inr]

theorem rhsBlock_eq {N : SeNet s} (hN : N.Valid) (M : Measured s) (v : Nat → CV s) {r : Nat} (hr : r < N.T.nBus) :
    rhsBlock N.T N.S N.y.param M v r = join (etaAt N.T N.y.param M v r) (rhsInjection M v r) := by
  obtain ⟨S', hS', I⟩ := structure_correct hN.topo
  rw [hN.structure_] at hS'
  injection hS' with hS'
  rw [← hS'] at I
  obtain ⟨k, h1, h2⟩ := I.bus.2 r hr
  unfold rhsBlock
  rw [h1, Option.getD_some, rhsFold_eq hN.topo hN.structure_ N.y.param M v _ h2]
  rfl

theorem at_prepareRhs {N : SeNet s} (hN : N.Valid) (M : Measured s) (u : Nat → CV s) {r : Nat} (hr : r < N.T.nBus) :
    at' (prepareRhs N.T N.S N.y.param M u) r = join (etaAt N.T N.y.param M (linearize M u) r) (rhsInjection M (linearize M u) r) := by
  funext t
  unfold at' prepareRhs
  rw [List.getElem?_map, List.getElem?_range hr, ← rhsBlock_eq hN M _ hr]
  rfl

theorem product_row (T : Topo) (P : Param (CM s)) (M : Measured s) (x : List (Fin (s.phases + s.phases) → ℂ)) {r : Nat} (hr : r < T.nBus) :
    product T.nBus (fun r c => (blockAt T P M r c).toBlk) x r = join
      (∑ c ∈ Finset.range T.nBus, (gAt T P M r c).mulVec (upper (at' x c)) +
        ∑ c ∈ Finset.range T.nBus, (qAt T P M c r).conjTranspose.mulVec (lower (at' x c)))
      (∑ c ∈ Finset.range T.nBus, (qAt T P M r c).mulVec (upper (at' x c)) + (rAt M r).mulVec (lower (at' x r))) := by
  have h1 : product T.nBus (fun r c => (blockAt T P M r c).toBlk) x r = ∑ c ∈ Finset.range T.nBus, ((blockAt T P M r c).toBlk).mulVec (at' x c) := by
    funext t
    rw [Finset.sum_apply]
    rfl
  rw [h1, Finset.sum_congr rfl fun c _ => toBlk_mulVec _ _, join_sum]
  congr 1
  · simp only [Finset.sum_add_distrib]
    rfl
  · simp only [Finset.sum_add_distrib]
    congr 1
    rw [Finset.sum_eq_single_of_mem r (Finset.mem_range.mpr hr)]
    · simp [blockAt]
    · intro c _ hc
      have : (blockAt T P M r c).r = 0 := by
        unfold blockAt
        simp only
        rw [if_neg (fun e => hc e.symm)]
      rw [this, zero_mulVec]

/-- Solutions of the block system are solutions of the equations. -/
theorem equations_of_system {N : SeNet s} (hN : N.Valid) (M : Measured s) (u : Nat → CV s) (x : List (Fin (s.phases + s.phases) → ℂ))
    (h : SolvesSystem N.T.nBus (fun r c => (blockAt N.T N.y.param M r c).toBlk) x (prepareRhs N.T N.S N.y.param M u)) :
    Equations N.T N.y.param M (linearize M u) (fun b => upper (at' x b)) (fun b => lower (at' x b)) := by
  have key : ∀ r, r < N.T.nBus → _ := fun r hr => (product_row N.T N.y.param M x hr).symm.trans
    ((funext (h.2 r hr)).trans (at_prepareRhs hN M u hr))
  exact ⟨fun r hr => (join_inj.mp (key r hr)).1, fun r hr => (join_inj.mp (key r hr)).2⟩

/-- Solutions of the equations are solutions of the block system. -/
theorem system_of_equations {N : SeNet s} (hN : N.Valid) (M : Measured s) (u u' φ' : Nat → CV s)
    (h : Equations N.T N.y.param M (linearize M u) u' φ') :
    SolvesSystem N.T.nBus (fun r c => (blockAt N.T N.y.param M r c).toBlk) ((List.range N.T.nBus).map fun b => join (u' b) (φ' b))
      (prepareRhs N.T N.S N.y.param M u) := by
  have hat : ∀ b, b < N.T.nBus → at' ((List.range N.T.nBus).map fun b => join (u' b) (φ' b)) b = join (u' b) (φ' b) := by
    intro b hb
    funext t
    unfold at'
    rw [List.getElem?_map, List.getElem?_range hb]
    rfl
  refine ⟨by simp, fun r hr t => ?_⟩
  rw [at_prepareRhs hN M u hr, product_row N.T N.y.param M _ hr]
  refine congrFun ?_ t
  rw [join_inj, ← h.first r hr, ← h.second r hr]
  refine ⟨?_, ?_⟩
  · congr 1
    · exact Finset.sum_congr rfl fun c hc => by rw [hat c (Finset.mem_range.mp hc), upper_join]
    · exact Finset.sum_congr rfl fun c hc => by rw [hat c (Finset.mem_range.mp hc), lower_join]
  · congr 1
    · exact Finset.sum_congr rfl fun c hc => by rw [hat c (Finset.mem_range.mp hc), upper_join]
    · rw [hat r hr, lower_join]

end PGM.StateEst
