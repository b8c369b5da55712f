import Verif.YBus.Build

/-!
# The structure of the admittance matrix: invariant of the loop
-/

namespace PGM.YBus

/-- There is a contribution of a branch or shunt at the position. -/
def isY (T : Topo) (p : Pos) : Bool :=
  match at_ T p with
  | [] => false
  | e :: _ => !e.el.type.isFill

/-- There is a contribution or a fill-in at the position. -/
def isL (T : Topo) (p : Pos) : Bool := !(at_ T p).isEmpty

theorem isL_of_isY {T : Topo} {p : Pos} (h : isY T p = true) : isL T p = true := by
  unfold isY at h
  unfold isL
  cases hp : at_ T p with
  | nil => rw [hp] at h; simp at h
  | cons => rfl

/-! ## Row pointers -/

/-- The row pointers after the positions `N`. -/
structure RowInv (n : Nat) (N : List Pos) (rs : Nat) (ip : List Nat) : Prop where
  len : ip.length = n + 1
  le : ∀ q ∈ N, q.1 ≤ rs
  top : rs = 0 ∨ ∃ q ∈ N, q.1 = rs
  val : ∀ r, r ≤ rs → ip[r]? = some (N.countP fun q => decide (q.1 < r))

theorem RowInv.step {n : Nat} {N : List Pos} {rs : Nat} {ip : List Nat} (h : RowInv n N rs ip) (p : Pos) (hn : p.1 < n)
    (hle : ∀ q ∈ N, q.1 ≤ p.1) (hd : p.1 = 0 ∨ ∃ q ∈ N, q.1 = p.1 - 1) :
    RowInv n (N ++ [p]) (if rs < p.1 then rs + 1 else rs) (if rs < p.1 then ip.set (rs + 1) N.length else ip) := by
  have hrs : rs ≤ p.1 := by
    rcases h.top with h1 | ⟨q, hq, h1⟩
    · omega
    · rw [← h1]; exact hle q hq
  have hden : p.1 ≤ rs + 1 := by
    rcases hd with hd | ⟨q, hq, hd⟩
    · omega
    · have := h.le q hq; omega
  split_ifs with hc
  · have hp : p.1 = rs + 1 := by omega
    refine ⟨by simp [h.len], ?_, Or.inr ⟨p, by simp, hp⟩, ?_⟩
    · intro q hq
      rw [List.mem_append, List.mem_singleton] at hq
      rcases hq with hq | rfl
      · have := h.le q hq; omega
      · omega
    · intro r hr
      rw [List.countP_append, List.countP_singleton, if_neg (by simp; omega)]
      simp only [Nat.add_zero]
      by_cases h1 : r = rs + 1
      · subst h1
        rw [List.getElem?_set_self (by rw [h.len]; omega)]
        congr 1
        symm
        rw [List.countP_eq_length]
        intro q hq
        have := h.le q hq
        simp; omega
      · rw [List.getElem?_set_ne (by omega), h.val r (by omega)]
  · have hp : p.1 = rs := by omega
    refine ⟨h.len, ?_, Or.inr ⟨p, by simp, hp⟩, ?_⟩
    · intro q hq
      rw [List.mem_append, List.mem_singleton] at hq
      rcases hq with hq | rfl
      · exact h.le q hq
      · omega
    · intro r hr
      rw [List.countP_append, List.countP_singleton, if_neg (by simp; omega)]
      simp only [Nat.add_zero]
      exact h.val r hr

theorem RowInv.start (n : Nat) : RowInv n [] 0 (List.replicate (n + 1) 0) where
  len := by simp
  le := by simp
  top := Or.inl rfl
  val := by
    intro r hr
    have : r = 0 := by omega
    subst this
    simp

/-- The row pointers at the end. -/
theorem RowInv.finish {n : Nat} {N : List Pos} {rs : Nat} {ip : List Nat} (h : RowInv n N rs ip) (hn : ∀ q ∈ N, q.1 < n)
    (hd : ∃ q ∈ N, q.1 + 1 = n) :
    (ip.set (rs + 1) N.length).length = n + 1 ∧
    ∀ r, r ≤ n → (ip.set (rs + 1) N.length)[r]? = some (N.countP fun q => decide (q.1 < r)) := by
  obtain ⟨q, hq, hd⟩ := hd
  have h1 : rs + 1 = n := by
    have := h.le q hq
    rcases h.top with h0 | ⟨q', hq', h0⟩
    · omega
    · have := hn q' hq'; omega
  refine ⟨by simp [h.len], fun r hr => ?_⟩
  by_cases hc : r = rs + 1
  · subst hc
    rw [List.getElem?_set_self (by rw [h.len]; omega)]
    congr 1
    symm
    rw [List.countP_eq_length]
    intro q hq
    have := h.le q hq
    simp; omega
  · rw [List.getElem?_set_ne (by omega), h.val r (by omega)]

/-! ## Fields after one position -/

theorem entry_fields (b : Build) (p : Pos) (el : Elem) (count : Nat) :
    let b' := (b.lu p).entry p el count
    b'.colIndices = b.colIndices ++ [p.2] ∧ b'.mapLuYBus = b.mapLuYBus ++ [some b.colIndices.length] ∧
    b'.colIndicesLu = b.colIndicesLu ++ [p.2] ∧ b'.posInEntries = b.posInEntries ++ [p] ∧ b'.fillCount = b.fillCount ∧
    b'.passed = b.passed + count ∧ b'.entryIndptr = b.entryIndptr ++ [b.passed + count - b.fillCount] := by
  unfold Build.entry Build.lu Build.nnz Build.nnzLu
  simp only
  refine ⟨?_, ?_, ?_, ?_, ?_, ?_, ?_⟩ <;> split_ifs <;> rfl

theorem entry_rows (b : Build) (p : Pos) (el : Elem) (count : Nat) :
    let b' := (b.lu p).entry p el count
    b'.rowStart = (if b.rowStart < p.1 then b.rowStart + 1 else b.rowStart) ∧
    b'.rowIndptr = (if b.rowStart < p.1 then b.rowIndptr.set (b.rowStart + 1) b.colIndices.length else b.rowIndptr) ∧
    b'.rowStartLu = (if b.rowStartLu < p.1 then b.rowStartLu + 1 else b.rowStartLu) ∧
    b'.rowIndptrLu = (if b.rowStartLu < p.1 then b.rowIndptrLu.set (b.rowStartLu + 1) b.mapLuYBus.length
      else b.rowIndptrLu) := by
  unfold Build.entry Build.lu Build.nnz Build.nnzLu
  simp only
  refine ⟨?_, ?_, ?_, ?_⟩ <;> split_ifs <;> rfl

theorem entry_diag (b : Build) (p : Pos) (el : Elem) (count : Nat) :
    let b' := (b.lu p).entry p el count
    b'.busEntry = (if p.1 = p.2 then b.busEntry.set p.1 b.colIndices.length else b.busEntry) ∧
    b'.diagLu = (if p.1 = p.2 then b.diagLu.set p.1 b.mapLuYBus.length else b.diagLu) ∧
    b'.offFt = (if p.1 = p.2 then b.offFt else if el.type = .ft then b.offFt.set el.idx b.mapLuYBus.length else b.offFt) ∧
    b'.offTf = (if p.1 = p.2 then b.offTf else if el.type = .ft then b.offTf else b.offTf.set el.idx b.mapLuYBus.length) := by
  unfold Build.entry Build.lu Build.nnz Build.nnzLu
  simp only
  refine ⟨?_, ?_, ?_, ?_⟩ <;> split_ifs <;> rfl

theorem fill_fields (nB : Nat) (b : Build) (p : Pos) (el : Elem) :
    let b' := (b.lu p).fill nB el
    b'.colIndices = b.colIndices ∧ b'.mapLuYBus = b.mapLuYBus ++ [none] ∧
    b'.colIndicesLu = b.colIndicesLu ++ [p.2] ∧ b'.posInEntries = b.posInEntries ∧ b'.fillCount = b.fillCount + 1 ∧
    b'.passed = b.passed + 1 ∧ b'.entryIndptr = b.entryIndptr ∧ b'.rowStart = b.rowStart ∧ b'.rowIndptr = b.rowIndptr ∧
    b'.busEntry = b.busEntry ∧ b'.diagLu = b.diagLu ∧
    b'.rowStartLu = (if b.rowStartLu < p.1 then b.rowStartLu + 1 else b.rowStartLu) ∧
    b'.rowIndptrLu = (if b.rowStartLu < p.1 then b.rowIndptrLu.set (b.rowStartLu + 1) b.mapLuYBus.length
      else b.rowIndptrLu) ∧
    b'.offFt = (if el.type = .fillFt then b.offFt.set (el.idx + nB) b.mapLuYBus.length else b.offFt) ∧
    b'.offTf = (if el.type = .fillFt then b.offTf else b.offTf.set (el.idx + nB) b.mapLuYBus.length) := by
  unfold Build.fill Build.lu Build.nnzLu
  simp only
  refine ⟨?_, ?_, ?_, ?_, ?_, ?_, ?_, ?_, ?_, ?_, ?_, ?_, ?_, ?_, ?_⟩ <;> split_ifs <;> rfl

/-! ## The invariant -/

/-- The positions so far with a contribution. -/
def yPos (T : Topo) (D : List Pos) : List Pos := D.filter (isY T)

/-- The positions so far with a contribution or a fill-in. -/
def lPos (T : Topo) (D : List Pos) : List Pos := D.filter (isL T)

/-- Direction of an element. -/
def isFt (e : Elem) : Bool := e.type = .ft || e.type = .fillFt

/-- The row of `off_diag_map`. -/
def slot (T : Topo) (e : Elem) : Nat := if e.type.isFill then e.idx + T.branches.length else e.idx

/-- What has been recorded in one column of `off_diag_map`. -/
structure OffInv (T : Topo) (L : List Pos) (ft : Bool) (off : List Nat) : Prop where
  len : off.length = T.branches.length + T.fillIn.length
  recorded : ∀ p ∈ L, p.1 ≠ p.2 → ∀ e es, at_ T p = e :: es → isFt e.el = ft → off[slot T e.el]? = some (L.idxOf p)
  only : ∀ (k : Nat) v, off[k]? = some v → v = 0 ∨
    ∃ p ∈ L, p.1 ≠ p.2 ∧ ∃ e es, at_ T p = e :: es ∧ isFt e.el = ft ∧ slot T e.el = k ∧ v = L.idxOf p

/-- The state after the positions `D`. -/
structure Inv (T : Topo) (D : List Pos) (b : Build) : Prop where
  cols : b.colIndices = (yPos T D).map (·.2)
  pos : b.posInEntries = yPos T D
  indptr : b.entryIndptr = (List.range ((yPos T D).length + 1)).map fun k =>
    (((yPos T D).take k).map fun p => (at_ T p).length).sum
  passed : b.passed = b.fillCount + ((yPos T D).map fun p => (at_ T p).length).sum
  colsLu : b.colIndicesLu = (lPos T D).map (·.2)
  map : b.mapLuYBus = (lPos T D).map fun p => if isY T p then some ((yPos T D).idxOf p) else none
  rows : RowInv T.nBus (yPos T D) b.rowStart b.rowIndptr
  rowsLu : RowInv T.nBus (lPos T D) b.rowStartLu b.rowIndptrLu
  bus : b.busEntry.length = T.nBus ∧ ∀ r, (r, r) ∈ yPos T D → b.busEntry[r]? = some ((yPos T D).idxOf (r, r))
  diag : b.diagLu.length = T.nBus ∧ ∀ r, (r, r) ∈ yPos T D → b.diagLu[r]? = some ((lPos T D).idxOf (r, r))
  offFt : OffInv T (lPos T D) true b.offFt
  offTf : OffInv T (lPos T D) false b.offTf

theorem Inv.start (T : Topo) : Inv T [] (Build.start T) where
  cols := rfl
  pos := rfl
  indptr := rfl
  passed := rfl
  colsLu := rfl
  map := rfl
  rows := RowInv.start _
  rowsLu := RowInv.start _
  bus := ⟨by simp [Build.start], fun r hr => by simp [yPos] at hr⟩
  diag := ⟨by simp [Build.start], fun r hr => by simp [yPos] at hr⟩
  offFt := ⟨by simp [Build.start], fun p hp => by simp [lPos] at hp, fun k v h => by
    simp only [Build.start, List.getElem?_replicate] at h
    split_ifs at h
    · left; simpa using h.symm⟩
  offTf := ⟨by simp [Build.start], fun p hp => by simp [lPos] at hp, fun k v h => by
    simp only [Build.start, List.getElem?_replicate] at h
    split_ifs at h
    · left; simpa using h.symm⟩

theorem idxOf_append_mem {L : List Pos} {p q : Pos} (h : q ∈ L) : (L ++ [p]).idxOf q = L.idxOf q :=
  List.idxOf_append_of_mem h

theorem idxOf_append_self {L : List Pos} {p : Pos} (h : p ∉ L) : (L ++ [p]).idxOf p = L.length := by
  rw [List.idxOf_append_of_notMem h]
  simp

/-- Recording one more off-diagonal position. -/
theorem OffInv.record {T : Topo} {L : List Pos} {ft : Bool} {off : List Nat} (h : OffInv T L ft off) (p : Pos) (hp : p ∉ L)
    (hd : p.1 ≠ p.2) (e : ElemMap) (es : List ElemMap) (he : at_ T p = e :: es) (hs : slot T e.el < off.length)
    (hft : isFt e.el = ft) : OffInv T (L ++ [p]) ft (off.set (slot T e.el) L.length) := by
  refine ⟨by simp [h.len], ?_, ?_⟩
  · intro q hq hqd e' es' he' hft'
    rw [List.mem_append, List.mem_singleton] at hq
    rcases hq with hq | rfl
    · have hne : q ≠ p := fun e => hp (e ▸ hq)
      have hslot : slot T e.el ≠ slot T e'.el := by
        intro hsl
        apply hne
        have m1 : e ∈ collect T := (List.mem_filter.mp (show e ∈ at_ T p by simp [he])).1
        have m2 : e' ∈ collect T := (List.mem_filter.mp (show e' ∈ at_ T q by simp [he'])).1
        have p1 : e.pos = p := by simpa using (List.mem_filter.mp (show e ∈ at_ T p by simp [he])).2
        have p2 : e'.pos = q := by simpa using (List.mem_filter.mp (show e' ∈ at_ T q by simp [he'])).2
        rw [← p1, ← p2]
        symm
        apply pos_of_el m1 m2
        -- same slot and direction
        have fillIdx : ∀ x ∈ collect T, x.el.type.isFill = false → x.el.type ≠ .shunt → x.el.idx < T.branches.length := by
          intro x hx hf hsh
          rw [mem_collect] at hx
          rcases hx with ⟨b, k, hb, hx⟩ | ⟨b, k, _, hb, rfl⟩ | ⟨f, k, hf', hx⟩
          · have hk := (List.getElem?_eq_some_iff.mp hb).1
            rw [mem_branchElems] at hx
            rcases hx with ⟨_, _, rfl⟩ | ⟨_, _, _, _, rfl⟩ | ⟨_, _, _, _, rfl⟩ | ⟨_, _, rfl⟩ <;> exact hk
          · simp at hsh
          · simp [fillElems] at hx
            rcases hx with rfl | rfl <;> simp [ElType.isFill] at hf
        have nodiag : ∀ x ∈ collect T, x.pos.1 ≠ x.pos.2 → x.el.type = .ft ∨ x.el.type = .tf ∨ x.el.type = .fillFt ∨
            x.el.type = .fillTf := by
          intro x hx hxd
          rw [mem_collect] at hx
          rcases hx with ⟨b, k, hb, hx⟩ | ⟨b, k, _, hb, rfl⟩ | ⟨f, k, hf', hx⟩
          · rw [mem_branchElems] at hx
            rcases hx with ⟨_, _, rfl⟩ | ⟨_, _, _, _, rfl⟩ | ⟨_, _, _, _, rfl⟩ | ⟨_, _, rfl⟩ <;> simp at hxd ⊢
          · simp at hxd
          · simp [fillElems] at hx
            rcases hx with rfl | rfl <;> simp
        have t1 := nodiag e m1 (by rw [p1]; exact hd)
        have t2 := nodiag e' m2 (by rw [p2]; exact hqd)
        have f1 := fillIdx e m1
        have f2 := fillIdx e' m2
        obtain ⟨_, ⟨ty, i⟩⟩ := e
        obtain ⟨_, ⟨ty', i'⟩⟩ := e'
        simp only [slot, isFt, Bool.or_eq_true, decide_eq_true_eq] at *
        subst hft
        rcases t1 with rfl | rfl | rfl | rfl <;> rcases t2 with rfl | rfl | rfl | rfl <;>
          simp_all [ElType.isFill] <;> omega
      rw [List.getElem?_set_ne hslot, idxOf_append_mem hq]
      exact h.recorded q hq hqd e' es' he' hft'
    · rw [he] at he'
      injection he' with he' _
      rw [← he', List.getElem?_set_self hs, idxOf_append_self hp]
  · intro k v hv
    by_cases hk : slot T e.el = k
    · right
      rw [hk, List.getElem?_set_self (by rw [← hk]; exact hs)] at hv
      injection hv with hv
      exact ⟨p, by simp, hd, e, es, he, hft, hk, by rw [idxOf_append_self hp, hv]⟩
    · rw [List.getElem?_set_ne hk] at hv
      rcases h.only k v hv with h0 | ⟨q, hq, h1, e', es', h2, h3, h4, h5⟩
      · exact Or.inl h0
      · exact Or.inr ⟨q, by simp [hq], h1, e', es', h2, h3, h4, by rw [idxOf_append_mem hq, h5]⟩

/-- A position that is not recorded in this column. -/
theorem OffInv.skip {T : Topo} {L : List Pos} {ft : Bool} {off : List Nat} (h : OffInv T L ft off) (p : Pos)
    (hs : p.1 = p.2 ∨ ∃ e es, at_ T p = e :: es ∧ isFt e.el ≠ ft) : OffInv T (L ++ [p]) ft off := by
  refine ⟨h.len, ?_, ?_⟩
  · intro q hq hqd e' es' he' hft'
    rw [List.mem_append, List.mem_singleton] at hq
    rcases hq with hq | rfl
    · rw [idxOf_append_mem hq]
      exact h.recorded q hq hqd e' es' he' hft'
    · rcases hs with hs | ⟨e, es, h1, h2⟩
      · exact absurd hs hqd
      · rw [h1] at he'
        injection he' with he' _
        rw [he'] at h2
        exact absurd hft' h2
  · intro k v hv
    rcases h.only k v hv with h0 | ⟨q, hq, h1, e', es', h2, h3, h4, h5⟩
    · exact Or.inl h0
    · exact Or.inr ⟨q, by simp [hq], h1, e', es', h2, h3, h4, by rw [idxOf_append_mem hq, h5]⟩

end PGM.YBus

namespace PGM.YBus

/-- What the loop needs. -/
structure Good (T : Topo) : Prop where
  pos : T.nBus ≠ 0
  range : ∀ x ∈ collect T, x.pos.1 < T.nBus ∧ x.pos.2 < T.nBus
  alone : FillAlone T
  cover : ∀ r, r < T.nBus → isY T (r, r) = true

/-- Slots are in range. -/
theorem slot_lt {T : Topo} {p : Pos} (hd : p.1 ≠ p.2) {e : ElemMap} (he : e ∈ at_ T p) :
    slot T e.el < T.branches.length + T.fillIn.length := by
  obtain ⟨m, hp⟩ := List.mem_filter.mp he
  have hp : e.pos = p := by simpa using hp
  rw [mem_collect] at m
  rcases m with ⟨b, k, hb, hx⟩ | ⟨b, k, _, hb, rfl⟩ | ⟨f, k, hf', hx⟩
  · have hk := (List.getElem?_eq_some_iff.mp hb).1
    rw [mem_branchElems] at hx
    rcases hx with ⟨_, _, rfl⟩ | ⟨_, _, _, _, rfl⟩ | ⟨_, _, _, _, rfl⟩ | ⟨_, _, rfl⟩ <;> simp [slot, ElType.isFill] <;> omega
  · rw [← hp] at hd; simp at hd
  · have hk := (List.getElem?_eq_some_iff.mp hf').1
    simp [fillElems] at hx
    rcases hx with rfl | rfl <;> simp [slot, ElType.isFill] <;> omega

/-- Types off the diagonal. -/
theorem type_off {T : Topo} {p : Pos} (hd : p.1 ≠ p.2) {e : ElemMap} (he : e ∈ at_ T p) :
    (e.el.type.isFill = true ∧ (e.el.type = .fillFt ∨ e.el.type = .fillTf)) ∨
      (e.el.type.isFill = false ∧ (e.el.type = .ft ∨ e.el.type = .tf)) := by
  obtain ⟨m, hp⟩ := List.mem_filter.mp he
  have hp : e.pos = p := by simpa using hp
  rw [← hp] at hd
  rw [mem_collect] at m
  rcases m with ⟨b, k, hb, hx⟩ | ⟨b, k, _, hb, rfl⟩ | ⟨f, k, hf', hx⟩
  · rw [mem_branchElems] at hx
    rcases hx with ⟨_, _, rfl⟩ | ⟨_, _, _, _, rfl⟩ | ⟨_, _, _, _, rfl⟩ | ⟨_, _, rfl⟩ <;> simp [ElType.isFill] at hd ⊢
  · simp at hd
  · simp [fillElems] at hx
    rcases hx with rfl | rfl <;> simp [ElType.isFill]

theorem Inv.step {T : Topo} (G : Good T) {D rest : List Pos} {p : Pos} (hD : positions T.nBus = D ++ p :: rest) {b : Build}
    (h : Inv T D b) : Inv T (D ++ [p]) (stepPos T b p) := by
  -- position of `p` among the others
  have hsort := positions_sorted T.nBus
  have hnodup := positions_nodup T.nBus
  rw [hD] at hsort hnodup
  have hp : p.1 < T.nBus ∧ p.2 < T.nBus := mem_positions.mp (by rw [hD]; simp)
  have hpD : p ∉ D := by
    have := (List.nodup_append.mp hnodup).2.2
    exact fun hm => this p hm p (by simp) rfl
  have hbefore : ∀ q ∈ D, Before q p := fun q hq => (List.pairwise_append.mp hsort).2.2 q hq p (by simp)
  have hle : ∀ q ∈ D, q.1 ≤ p.1 := fun q hq => by rcases hbefore q hq with h | ⟨h, _⟩ <;> omega
  have hafter : ∀ q ∈ rest, Before p q := fun q hq =>
    (List.pairwise_cons.mp (List.pairwise_append.mp hsort).2.1).1 q hq
  have hdense : p.1 = 0 ∨ ((p.1 - 1, p.1 - 1) : Pos) ∈ D := by
    by_cases h0 : p.1 = 0
    · exact Or.inl h0
    · right
      have : ((p.1 - 1, p.1 - 1) : Pos) ∈ positions T.nBus := mem_positions.mpr ⟨by simp only; omega, by simp only; omega⟩
      rw [hD, List.mem_append, List.mem_cons] at this
      rcases this with h1 | h1 | h1
      · exact h1
      · have := congrArg Prod.fst h1; simp only at this; omega
      · rcases hafter _ h1 with h2 | ⟨h2, _⟩ <;> simp only at h2 <;> omega
  have hdY : p.1 = 0 ∨ ∃ q ∈ yPos T D, q.1 = p.1 - 1 := by
    rcases hdense with h0 | h0
    · exact Or.inl h0
    · exact Or.inr ⟨_, List.mem_filter.mpr ⟨h0, G.cover _ (by omega)⟩, rfl⟩
  have hdL : p.1 = 0 ∨ ∃ q ∈ lPos T D, q.1 = p.1 - 1 := by
    rcases hdense with h0 | h0
    · exact Or.inl h0
    · exact Or.inr ⟨_, List.mem_filter.mpr ⟨h0, isL_of_isY (G.cover _ (by omega))⟩, rfl⟩
  have hleY : ∀ q ∈ yPos T D, q.1 ≤ p.1 := fun q hq => hle q (List.mem_filter.mp hq).1
  have hleL : ∀ q ∈ lPos T D, q.1 ≤ p.1 := fun q hq => hle q (List.mem_filter.mp hq).1
  have hpY : p ∉ yPos T D := fun hm => hpD (List.mem_filter.mp hm).1
  have hpL : p ∉ lPos T D := fun hm => hpD (List.mem_filter.mp hm).1
  have hcolY : b.colIndices.length = (yPos T D).length := by rw [h.cols]; simp
  have hmapL : b.mapLuYBus.length = (lPos T D).length := by rw [h.map]; simp
  unfold stepPos
  cases he : at_ T p with
  | nil =>
    have e1 : yPos T (D ++ [p]) = yPos T D := by simp [yPos, List.filter_append, isY, he]
    have e2 : lPos T (D ++ [p]) = lPos T D := by simp [lPos, List.filter_append, isL, he]
    simp only
    exact ⟨by rw [e1]; exact h.cols, by rw [e1]; exact h.pos, by rw [e1]; exact h.indptr, by rw [e1]; exact h.passed,
      by rw [e2]; exact h.colsLu, by rw [e1, e2]; exact h.map, by rw [e1]; exact h.rows, by rw [e2]; exact h.rowsLu,
      by rw [e1]; exact h.bus, by rw [e1, e2]; exact h.diag, by rw [e2]; exact h.offFt, by rw [e2]; exact h.offTf⟩
  | cons e es =>
    have hmem : e ∈ at_ T p := by simp [he]
    simp only
    cases hfill : e.el.type.isFill
    · -- contribution
      have e1 : yPos T (D ++ [p]) = yPos T D ++ [p] := by simp [yPos, List.filter_append, isY, he, hfill]
      have e2 : lPos T (D ++ [p]) = lPos T D ++ [p] := by simp [lPos, List.filter_append, isL, he]
      have hyp : isY T p = true := by simp [isY, he, hfill]
      simp only [Bool.false_eq_true, if_false]
      obtain ⟨f1, f2, f3, f4, f5, f6, f7⟩ := entry_fields b p e.el (1 + es.length)
      obtain ⟨r1, r2, r3, r4⟩ := entry_rows b p e.el (1 + es.length)
      obtain ⟨d1, d2, d3, d4⟩ := entry_diag b p e.el (1 + es.length)
      have hlen : (at_ T p).length = 1 + es.length := by rw [he]; simp; omega
      refine ⟨?_, ?_, ?_, ?_, ?_, ?_, ?_, ?_, ?_, ?_, ?_, ?_⟩
      · rw [f1, e1, h.cols]; simp
      · rw [f4, e1, h.pos]
      · rw [f7, e1, h.indptr, h.passed, List.length_append, List.length_singleton,
          List.range_succ (n := (yPos T D).length + 1), List.map_append]
        congr 1
        · apply List.map_congr_left
          intro k hk
          rw [List.mem_range] at hk
          rw [List.take_append_of_le_length (by omega)]
        · simp only [List.map_cons, List.map_nil, List.cons.injEq, and_true]
          rw [List.take_of_length_le (by simp), List.map_append, List.sum_append]
          simp only [List.map_cons, List.map_nil, List.sum_cons, List.sum_nil, hlen]
          omega
      · rw [f6, f5, e1, h.passed, List.map_append, List.sum_append]
        simp only [List.map_cons, List.map_nil, List.sum_cons, List.sum_nil, hlen]
        omega
      · rw [f3, e2, h.colsLu]; simp
      · rw [f2, e1, e2, h.map, List.map_append, hcolY]
        congr 1
        · apply List.map_congr_left
          intro q hq
          split_ifs with hqy
          · rw [idxOf_append_mem (show q ∈ yPos T D from List.mem_filter.mpr ⟨(List.mem_filter.mp hq).1, hqy⟩)]
          · rfl
        · simp only [List.map_cons, List.map_nil, hyp, if_true]
          rw [idxOf_append_self hpY]
      · rw [r1, r2, e1, hcolY]; exact h.rows.step p hp.1 hleY hdY
      · rw [r3, r4, e2, hmapL]; exact h.rowsLu.step p hp.1 hleL hdL
      · rw [d1, e1, hcolY]
        refine ⟨by split_ifs <;> simp [h.bus.1], fun r hr => ?_⟩
        rw [List.mem_append, List.mem_singleton] at hr
        rcases hr with hr | rfl
        · rw [idxOf_append_mem hr, ← h.bus.2 r hr]
          split_ifs with hc
          · rw [List.getElem?_set_ne]
            intro e
            apply hpY
            have : p = (r, r) := by
              apply Prod.ext
              · exact e
              · simp only; omega
            rw [this]; exact hr
          · rfl
        · simp only [if_true]
          rw [List.getElem?_set_self (by rw [h.bus.1]; exact hp.1), idxOf_append_self hpY]
      · rw [d2, e1, e2, hmapL]
        refine ⟨by split_ifs <;> simp [h.diag.1], fun r hr => ?_⟩
        rw [List.mem_append, List.mem_singleton] at hr
        rcases hr with hr | rfl
        · have hrL : ((r, r) : Pos) ∈ lPos T D :=
            List.mem_filter.mpr ⟨(List.mem_filter.mp hr).1, isL_of_isY (List.mem_filter.mp hr).2⟩
          rw [idxOf_append_mem hrL, ← h.diag.2 r hr]
          split_ifs with hc
          · rw [List.getElem?_set_ne]
            intro e
            apply hpY
            have : p = (r, r) := by
              apply Prod.ext
              · exact e
              · simp only; omega
            rw [this]; exact hr
          · rfl
        · simp only [if_true]
          rw [List.getElem?_set_self (by rw [h.diag.1]; exact hp.1), idxOf_append_self hpL]
      · rw [d3, e2, hmapL]
        by_cases hpd : p.1 = p.2
        · rw [if_pos hpd]; exact h.offFt.skip p (Or.inl hpd)
        · rw [if_neg hpd]
          have hty := type_off hpd hmem
          rw [hfill] at hty
          simp only [Bool.false_eq_true, false_and, true_and, false_or] at hty
          rcases hty with hty | hty
          · rw [if_pos hty]
            have : e.el.idx = slot T e.el := by simp [slot, hfill]
            rw [this]
            exact h.offFt.record p hpL hpd e es he (by rw [h.offFt.len]; exact slot_lt hpd hmem) (by simp [isFt, hty])
          · rw [if_neg (by simp [hty])]
            exact h.offFt.skip p (Or.inr ⟨e, es, he, by simp [isFt, hty]⟩)
      · rw [d4, e2, hmapL]
        by_cases hpd : p.1 = p.2
        · rw [if_pos hpd]; exact h.offTf.skip p (Or.inl hpd)
        · rw [if_neg hpd]
          have hty := type_off hpd hmem
          rw [hfill] at hty
          simp only [Bool.false_eq_true, false_and, true_and, false_or] at hty
          rcases hty with hty | hty
          · rw [if_pos hty]
            exact h.offTf.skip p (Or.inr ⟨e, es, he, by simp [isFt, hty]⟩)
          · rw [if_neg (by simp [hty])]
            have : e.el.idx = slot T e.el := by simp [slot, hfill]
            rw [this]
            exact h.offTf.record p hpL hpd e es he (by rw [h.offTf.len]; exact slot_lt hpd hmem) (by simp [isFt, hty])
    · -- fill-in
      have e1 : yPos T (D ++ [p]) = yPos T D := by simp [yPos, List.filter_append, isY, he, hfill]
      have e2 : lPos T (D ++ [p]) = lPos T D ++ [p] := by simp [lPos, List.filter_append, isL, he]
      have hyp : isY T p = false := by simp [isY, he, hfill]
      have hpd : p.1 ≠ p.2 := by
        intro e
        have := G.cover p.1 hp.1
        have e' : p = (p.1, p.1) := Prod.ext rfl e.symm
        rw [← e', hyp] at this
        simp at this
      simp only [if_true]
      obtain ⟨f1, f2, f3, f4, f5, f6, f7, f8, f9, f10, f11, f12, f13, f14, f15⟩ := fill_fields T.branches.length b p e.el
      have hty := type_off hpd hmem
      rw [hfill] at hty
      simp only [Bool.true_eq_false, false_and, true_and, or_false] at hty
      have hsl : e.el.idx + T.branches.length = slot T e.el := by simp [slot, hfill]
      refine ⟨?_, ?_, ?_, ?_, ?_, ?_, ?_, ?_, ?_, ?_, ?_, ?_⟩
      · rw [f1, e1]; exact h.cols
      · rw [f4, e1]; exact h.pos
      · rw [f7, e1]; exact h.indptr
      · rw [f6, f5, e1, h.passed]; omega
      · rw [f3, e2, h.colsLu]; simp
      · rw [f2, e1, e2, h.map, List.map_append]
        simp [hyp]
      · rw [f8, f9, e1]; exact h.rows
      · rw [f12, f13, e2, hmapL]; exact h.rowsLu.step p hp.1 hleL hdL
      · rw [f10, e1]; exact h.bus
      · rw [f11, e1, e2]
        refine ⟨h.diag.1, fun r hr => ?_⟩
        rw [h.diag.2 r hr, idxOf_append_mem]
        exact List.mem_filter.mpr ⟨(List.mem_filter.mp hr).1, isL_of_isY (List.mem_filter.mp hr).2⟩
      · rw [f14, e2, hmapL]
        rcases hty with hty | hty
        · rw [if_pos hty, hsl]
          exact h.offFt.record p hpL hpd e es he (by rw [h.offFt.len]; exact slot_lt hpd hmem) (by simp [isFt, hty])
        · rw [if_neg (by simp [hty])]
          exact h.offFt.skip p (Or.inr ⟨e, es, he, by simp [isFt, hty]⟩)
      · rw [f15, e2, hmapL]
        rcases hty with hty | hty
        · rw [if_pos hty]
          exact h.offTf.skip p (Or.inr ⟨e, es, he, by simp [isFt, hty]⟩)
        · rw [if_neg (by simp [hty]), hsl]
          exact h.offTf.record p hpL hpd e es he (by rw [h.offTf.len]; exact slot_lt hpd hmem) (by simp [isFt, hty])

/-- The state at the end of the loop. -/
theorem build_inv {T : Topo} (G : Good T) :
    ∃ v, countingSort T.nBus (collect T) = some v ∧ v = (positions T.nBus).flatMap (at_ T) ∧
      Inv T (positions T.nBus) (buildLoop T.branches.length v (Build.start T)) := by
  refine ⟨_, countingSort_spec T.nBus G.pos (collect T) G.range, rfl, ?_⟩
  rw [show (fun p => List.filter (fun x => decide (x.pos = p)) (collect T)) = at_ T from rfl,
    buildLoop_eq T G.alone _ (positions_nodup _)]
  have key : ∀ (rest D : List Pos) (b : Build), positions T.nBus = D ++ rest → Inv T D b →
      Inv T (D ++ rest) (rest.foldl (stepPos T) b) := by
    intro rest
    induction rest with
    | nil => intro D b _ h; simpa using h
    | cons p rest ih =>
      intro D b hD h
      have := ih (D ++ [p]) (stepPos T b p) (by simp [hD]) (h.step G hD)
      simpa using this
  exact key _ [] _ rfl (Inv.start T)

end PGM.YBus
