import Verif.Lu.Pattern
import Verif.Lu.DenseProps

/-!
# The factorisation on block matrices

The loops over positions compute the matrix `stepM`, in which a pivot acts on all rows and columns.
-/

namespace PGM.Lu

variable {K : Type} [RCLike K] {n : Nat} {p : Pattern} {N : Nat} {pat : Nat → Nat → Prop}

/-! ## Loops that may fail -/

/-- The loop failed because of a singular pivot, or it ended well. -/
def Good {σ : Type} (r : Except Err σ) (P : σ → Prop) : Prop := r = .error .singular ∨ ∃ s, r = .ok s ∧ P s

theorem foldlM_induct {σ α : Type} (f : σ → α → Except Err σ) (P : List α → σ → Prop) (l : List α) (s : σ) (h0 : P [] s)
    (hs : ∀ done a rest s, l = done ++ a :: rest → P done s → ∃ s', f s a = .ok s' ∧ P (done ++ [a]) s') :
    ∃ s', l.foldlM f s = .ok s' ∧ P l s' := by
  have key : ∀ (rest done : List α) (s : σ), l = done ++ rest → P done s → ∃ s', rest.foldlM f s = .ok s' ∧ P l s' := by
    intro rest
    induction rest with
    | nil =>
      intro done s e hP
      rw [List.append_nil] at e
      exact ⟨s, rfl, e ▸ hP⟩
    | cons a rest ih =>
      intro done s e hP
      obtain ⟨s1, e1, h1⟩ := hs done a rest s e hP
      obtain ⟨s2, e2, h2⟩ := ih (done ++ [a]) s1 (by rw [e]; simp) h1
      refine ⟨s2, ?_, h2⟩
      rw [List.foldlM_cons, e1]
      exact e2
  exact key l [] s rfl h0

theorem foldlM_range_good {σ : Type} (f : σ → Nat → Except Err σ) (P : Nat → σ → Prop) (N : Nat) (s : σ) (h0 : P 0 s)
    (hs : ∀ k s, k < N → P k s → Good (f s k) (P (k + 1))) : Good ((List.range N).foldlM f s) (P N) := by
  have key : ∀ d k s, k + d = N → P k s → Good ((List.range' k d).foldlM f s) (P N) := by
    intro d
    induction d with
    | zero => intro k s e hP; exact Or.inr ⟨s, rfl, by rw [← e]; exact hP⟩
    | succ d ih =>
      intro k s e hP
      rw [List.range'_succ, List.foldlM_cons]
      rcases hs k s (by omega) hP with h | ⟨s1, h, h1⟩
      · left; rw [h]; rfl
      · rw [h]
        exact ih (k + 1) s1 (by omega) h1
  rw [List.range_eq_range']
  exact key N 0 s (by omega) h0

theorem foldlM_range_induct {σ : Type} (f : σ → Nat → Except Err σ) (P : Nat → σ → Prop) (N : Nat) (s : σ) (h0 : P 0 s)
    (hs : ∀ k s, k < N → P k s → ∃ s', f s k = .ok s' ∧ P (k + 1) s') : ∃ s', (List.range N).foldlM f s = .ok s' ∧ P N s' := by
  have key : ∀ d k s, k + d = N → P k s → ∃ s', (List.range' k d).foldlM f s = .ok s' ∧ P N s' := by
    intro d
    induction d with
    | zero => intro k s e hP; exact ⟨s, rfl, by rw [← e]; exact hP⟩
    | succ d ih =>
      intro k s e hP
      rw [List.range'_succ, List.foldlM_cons]
      obtain ⟨s1, h, h1⟩ := hs k s (by omega) hP
      rw [h]
      exact ih (k + 1) s1 (by omega) h1
  rw [List.range_eq_range']
  exact key N 0 s (by omega) h0

theorem foldlM_range_reverse {σ : Type} (f : σ → Nat → Except Err σ) (P : Nat → σ → Prop) (N : Nat) (s : σ) (h0 : P N s)
    (hs : ∀ k s, k < N → P (k + 1) s → ∃ s', f s k = .ok s' ∧ P k s') : ∃ s', (List.range N).reverse.foldlM f s = .ok s' ∧ P 0 s' := by
  induction N generalizing s with
  | zero => exact ⟨s, rfl, h0⟩
  | succ N ih =>
    rw [List.range_succ, List.reverse_append, List.reverse_singleton, List.singleton_append, List.foldlM_cons]
    obtain ⟨s1, h, h1⟩ := hs N s (by omega) h0
    rw [h]
    exact ih s1 h1 (fun k s hk => hs k s (by omega))

/-! ## Data as a block matrix -/

/-- The data hold the blocks of `M` at the entries of the pattern. -/
structure Rep (p : Pattern) (N : Nat) (data : List (Blk K n)) (M : Nat → Nat → Blk K n) : Prop where
  len : data.length = p.colIndices.length
  val : ∀ r c i, r < N → p.At r c i → data[i]? = some (M r c)

/-- One block replaced. -/
def upd (M : Nat → Nat → Blk K n) (r c : Nat) (v : Blk K n) : Nat → Nat → Blk K n := fun a b => if a = r ∧ b = c then v else M a b

theorem rep_rd {data : List (Blk K n)} {M} (R : Rep p N data M) {r c i : Nat} (hr : r < N) (h : p.At r c i) : rd data i = .ok (M r c) := by
  unfold rd
  rw [R.val r c i hr h]

theorem rep_wr (hv : p.Valid N pat) {data : List (Blk K n)} {M} (R : Rep p N data M) {r c i : Nat} (hr : r < N) (h : p.At r c i) (v : Blk K n) :
    ∃ data', wr data i v = .ok data' ∧ Rep p N data' (upd M r c v) := by
  have hi : i < data.length := by rw [R.len]; exact (at_bounds hv h).2.2.2
  refine ⟨data.set i v, by unfold wr; rw [if_pos hi], by rw [List.length_set, R.len], fun r' c' i' hr' h' => ?_⟩
  unfold upd
  by_cases e : i = i'
  · subst e
    obtain ⟨e1, e2⟩ := at_unique hv hr hr' h h'
    rw [if_pos ⟨e1.symm, e2.symm⟩, List.getElem?_set_self hi]
  · rw [List.getElem?_set_ne e, R.val r' c' i' hr' h', if_neg]
    rintro ⟨rfl, rfl⟩
    exact e (at_index_unique hv h h')

theorem Rep.congr {data : List (Blk K n)} {M M' : Nat → Nat → Blk K n} (hv : p.Valid N pat) (R : Rep p N data M)
    (h : ∀ r c, r < N → c < N → pat r c → M r c = M' r c) : Rep p N data M' :=
  ⟨R.len, fun r c i hr hi => by
    rw [R.val r c i hr hi, h r c hr (hv.range r c hr (at_pat hv hr hi)) (at_pat hv hr hi)]⟩

/-! ## The next position of each row -/

/-- The position of each row is the first one with a column not less than the bound. -/
structure CPos (p : Pattern) (N : Nat) (colPos : List Nat) (bound : Nat → Nat) : Prop where
  len : colPos.length = N
  val : ∀ r, r < N → ∃ x, colPos[r]? = some x ∧ p.start r ≤ x ∧ ∀ c i, p.At r c i → (i < x ↔ c < bound r)

theorem cpos_rd (hv : p.Valid N pat) {colPos : List Nat} {bound : Nat → Nat} (C : CPos p N colPos bound) {r i : Nat} (hr : r < N)
    (h : p.At r (bound r) i) : rd colPos r = .ok i := by
  obtain ⟨x, e, hx, hiff⟩ := C.val r hr
  have hge : x ≤ i := by
    by_contra hn
    have := (hiff (bound r) i h).mp (by omega)
    omega
  have : x = i := by
    by_contra hn
    have hb := at_bounds hv h
    have hat := (at_of_bounds hv hr (i := x) hx (by omega)).1
    have h1 := (at_lt_iff hv hat h).mp (by omega)
    have := (hiff _ x hat).mpr h1
    omega
  unfold rd
  rw [e, this]

theorem cpos_wr (hv : p.Valid N pat) {colPos : List Nat} {bound : Nat → Nat} (C : CPos p N colPos bound) {r i : Nat} (hr : r < N)
    (h : p.At r (bound r) i) : ∃ colPos', wr colPos r (i + 1) = .ok colPos' ∧ CPos p N colPos' (Function.update bound r (bound r + 1)) := by
  refine ⟨colPos.set r (i + 1), by unfold wr; rw [if_pos (by rw [C.len]; exact hr)], by rw [List.length_set, C.len], fun r' hr' => ?_⟩
  by_cases e : r = r'
  · subst e
    rw [List.getElem?_set_self (by rw [C.len]; exact hr), Function.update_self]
    refine ⟨i + 1, rfl, ?_, fun c j hj => ?_⟩
    · have := at_bounds hv h; omega
    · have h1 := at_lt_iff hv h hj
      constructor
      · intro hl
        by_contra hn
        have := h1.mpr (by omega)
        omega
      · intro hl
        by_contra hn
        have := h1.mp (by omega)
        omega
  · rw [List.getElem?_set_ne e, Function.update_of_ne (Ne.symm e)]
    exact C.val r' hr'

theorem CPos.congr {colPos : List Nat} {bound bound' : Nat → Nat} (C : CPos p N colPos bound)
    (h : ∀ r, r < N → ∀ c i, p.At r c i → (c < bound r ↔ c < bound' r)) : CPos p N colPos bound' :=
  ⟨C.len, fun r hr => by
    obtain ⟨x, e, hx, hiff⟩ := C.val r hr
    exact ⟨x, e, hx, fun c i hi => (hiff c i hi).trans (h r hr c i hi)⟩⟩

theorem cpos_init (hv : p.Valid N pat) : CPos p N p.rowIndptr.dropLast (fun _ => 0) := by
  refine ⟨by rw [List.length_dropLast, hv.csr.len]; omega, fun r hr => ?_⟩
  obtain ⟨a, z, e1, e2, e3⟩ := hv.csr.mono r hr
  refine ⟨a, ?_, ?_, fun c i hi => ?_⟩
  · rw [List.getElem?_dropLast, if_pos (by rw [hv.csr.len]; omega), e1]
  · unfold Pattern.start; rw [e1]; rfl
  · have hb := (at_bounds hv hi).1
    unfold Pattern.start at hb
    rw [e1] at hb
    simp only [Option.getD_some] at hb
    omega

/-! ## One pivot -/

section
variable (k : Nat) (lu : Blk K n) (bp : BlockPerm n)

/-- The rows and columns in `D` permuted. -/
def permM (D : List Nat) (M : Nat → Nat → Blk K n) : Nat → Nat → Blk K n := fun r c =>
  if r = k ∧ c ∈ D then permRows bp.p (M r c) else if c = k ∧ r ∈ D then permCols (M r c) bp.q else M r c

/-- The lower solve of the columns. -/
noncomputable def lsolve (u : Blk K n) : Blk K n := triSolve (V := Fin n → K) .left .lower lu u

/-- The row of the pivot solved for the columns in `D`. -/
noncomputable def upperM (D : List Nat) (M : Nat → Nat → Blk K n) : Nat → Nat → Blk K n := fun r c =>
  if r = k ∧ c ∈ D then lsolve lu (permRows bp.p (M r c)) else M r c

/-- The complement of one row at the columns in `D`. -/
def schurM (row : Nat) (l : Blk K n) (D : List Nat) (M : Nat → Nat → Blk K n) : Nat → Nat → Blk K n := fun r c =>
  if r = row ∧ c ∈ D then M r c - l * M k c else M r c

/-- The rows in `D` eliminated at the columns in `R`. -/
noncomputable def lowerM (R D : List Nat) (M : Nat → Nat → Blk K n) : Nat → Nat → Blk K n := fun r c =>
  if r ∈ D ∧ c = k then lowerBlock lu bp (M r c)
  else if r ∈ D ∧ c ∈ R then M r c - lowerBlock lu bp (M r k) * M k c else M r c

end

theorem split_cols {l : List Nat} (hs : (l.map p.col).Pairwise (· < ·)) {done rest : List Nat} {a : Nat} (e : l = done ++ a :: rest) :
    (∀ c ∈ done.map p.col, c < p.col a) ∧ a ∈ l := by
  subst e
  rw [List.map_append, List.map_cons, List.pairwise_append] at hs
  exact ⟨fun c hc => hs.2.2 c hc (p.col a) (by simp), by simp⟩

theorem perm_loop (hv : p.Valid N pat) {k : Nat} (hk : k < N) (bp : BlockPerm n) (M : Nat → Nat → Blk K n) (st : LuState K n)
    (hrep : Rep p N st.data M) (hpos : CPos p N st.colPos (fun _ => k)) :
    ∃ st', (idxRange (p.start k) (p.diag k)).foldlM (permStep p k bp) st = .ok st' ∧ Rep p N st'.data (permM k bp (leftCols p k) M) ∧
      CPos p N st'.colPos (fun r => if r < k then k + 1 else k) ∧ st'.perms = st.perms ∧ st'.flag = st.flag := by
  obtain ⟨hsort, hmem⟩ := leftCols_spec hv hk
  have hb := at_bounds hv (diag_at hv hk)
  obtain ⟨st', e, h1, h2, h3, h4⟩ := foldlM_induct (permStep p k bp)
    (fun done st' => Rep p N st'.data (permM k bp (done.map p.col) M) ∧
      CPos p N st'.colPos (fun r => if r ∈ done.map p.col then k + 1 else k) ∧ st'.perms = st.perms ∧ st'.flag = st.flag)
    (idxRange (p.start k) (p.diag k)) st
    ⟨hrep.congr hv (by intros; simp [permM]), by simpa using hpos, rfl, rfl⟩ (by
      intro done a rest s el hP
      obtain ⟨hR, hC, hp, hf⟩ := hP
      obtain ⟨hlt, hmem'⟩ := split_cols hsort el
      rw [mem_idxRange] at hmem'
      obtain ⟨hat, hpat⟩ := at_of_bounds hv hk (i := a) (by omega) (by omega)
      have hck : p.col a < k := ((hmem (p.col a)).mp (List.mem_map.mpr ⟨a, mem_idxRange.mpr hmem', rfl⟩)).2
      have hcN : p.col a < N := by omega
      have hsym := hv.symm k (p.col a) hk hpat
      obtain ⟨i, hi⟩ := at_exists hv hcN hsym
      have hnd : p.col a ∉ done.map p.col := fun h => by have := hlt _ h; omega
      obtain ⟨d1, w1, R1⟩ := rep_wr hv hR hk hat (permRows bp.p (permM k bp (done.map p.col) M k (p.col a)))
      have hbound : (fun r => if r ∈ done.map p.col then k + 1 else k) (p.col a) = k := by simp only; rw [if_neg hnd]
      have hi' : p.At (p.col a) ((fun r => if r ∈ done.map p.col then k + 1 else k) (p.col a)) i := by rw [hbound]; exact hi
      have rd1 := cpos_rd hv hC hcN hi'
      obtain ⟨d2, w2, R2⟩ := rep_wr hv R1 hcN hi
        (permCols (upd (permM k bp (done.map p.col) M) k (p.col a) (permRows bp.p (permM k bp (done.map p.col) M k (p.col a))) (p.col a) k) bp.q)
      obtain ⟨cp, w3, C1⟩ := cpos_wr hv hC hcN hi'
      refine ⟨{ s with data := d2, colPos := cp }, ?_, ?_, ?_, hp, hf⟩
      · unfold permStep
        rw [rep_rd hR hk hat]
        simp only [bind, Except.bind]
        rw [w1]
        simp only
        rw [rd1]
        simp only
        rw [if_neg (by rw [not_not]; exact (at_bounds hv hi).2.2.1), rep_rd R1 hcN hi]
        simp only
        rw [w2]
        simp only
        rw [w3]
      · refine R2.congr hv (fun r c hr hc _ => ?_)
        have hka : k ≠ p.col a := by omega
        simp only [upd, permM, List.map_append, List.map_cons, List.map_nil, List.mem_append, List.mem_singleton]
        have hkd : k ∉ done.map p.col := fun h => by have := hlt _ h; omega
        by_cases hrk : r = k
        · subst hrk
          by_cases hca : c = p.col a
          · subst hca
            simp [hka, hkd, hnd]
          · simp [hca, hkd, hka]
        · by_cases hck' : c = k
          · subst hck'
            by_cases hra : r = p.col a
            · subst hra
              simp [hrk, hnd]
            · simp [hrk, hra]
          · simp [hrk, hck']
      · refine C1.congr (fun r hr c j hj => ?_)
        simp only [Function.update_apply, List.map_append, List.map_cons, List.map_nil, List.mem_append, List.mem_singleton]
        by_cases hra : r = p.col a
        · subst hra; simp [hnd]
        · simp [hra])
  refine ⟨st', e, h1, h2.congr (fun r hr c i hi => ?_), h3, h4⟩
  have : r ∈ (idxRange (p.start k) (p.diag k)).map p.col ↔ pat k r ∧ r < k := hmem r
  by_cases hrk : r < k
  · by_cases hp : pat k r
    · rw [if_pos (this.mpr ⟨hp, hrk⟩), if_pos hrk]
    · rw [if_neg (fun h => hp (this.mp h).1), if_pos hrk]
      have hne : c ≠ k := fun h => hp (hv.symm r k hr (h ▸ at_pat hv hr hi))
      omega
  · rw [if_neg (fun h => hrk (this.mp h).2), if_neg hrk]

theorem upper_loop (hv : p.Valid N pat) {k : Nat} (hk : k < N) (lu : Blk K n) (bp : BlockPerm n) (M : Nat → Nat → Blk K n)
    (data : List (Blk K n)) (hrep : Rep p N data M) :
    ∃ data', (idxRange (p.diag k + 1) (p.start (k + 1))).foldlM (upperStep lu bp) data = .ok data' ∧
      Rep p N data' (upperM k lu bp (rightCols p k) M) := by
  obtain ⟨hsort, hmem⟩ := rightCols_spec hv hk
  have hb := at_bounds hv (diag_at hv hk)
  refine foldlM_induct (upperStep lu bp) (fun done data' => Rep p N data' (upperM k lu bp (done.map p.col) M)) _ data
    (hrep.congr hv (by intros; simp [upperM])) (fun done a rest s el hR => ?_)
  obtain ⟨hlt, hmem'⟩ := split_cols hsort el
  rw [mem_idxRange] at hmem'
  obtain ⟨hat, hpat⟩ := at_of_bounds hv hk (i := a) (by omega) (by omega)
  have hnd : p.col a ∉ done.map p.col := fun h => by have := hlt _ h; omega
  obtain ⟨d1, w1, R1⟩ := rep_wr hv hR hk hat (lsolve lu (permRows bp.p (upperM k lu bp (done.map p.col) M k (p.col a))))
  refine ⟨d1, ?_, R1.congr hv (fun r c hr hc _ => ?_)⟩
  · unfold upperStep
    rw [rep_rd hR hk hat]
    exact w1
  · simp only [upd, upperM, List.map_append, List.map_cons, List.map_nil, List.mem_append, List.mem_singleton]
    by_cases h1 : r = k
    · by_cases h2 : c = p.col a
      · subst h1 h2; simp [hnd]
      · simp [h1, h2]
    · simp [h1]

theorem schur_loop (hv : p.Valid N pat) {k row : Nat} (hk : k < N) (hrow : row < N) (hkr : k < row) (hpat : pat row k) {lIdx : Nat}
    (hl : p.At row k lIdx) (l : Blk K n) (M : Nat → Nat → Blk K n) (data : List (Blk K n)) (hrep : Rep p N data M) :
    ∃ st', (idxRange (p.diag k + 1) (p.start (k + 1))).foldlM (schurStep p k row l) (lIdx, data) = .ok st' ∧
      Rep p N st'.2 (schurM k row l (rightCols p k) M) := by
  obtain ⟨hsort, hmem⟩ := rightCols_spec hv hk
  have hb := at_bounds hv (diag_at hv hk)
  obtain ⟨st', e, h1, _⟩ := foldlM_induct (schurStep p k row l)
    (fun done st' => Rep p N st'.2 (schurM k row l (done.map p.col) M) ∧ ∃ c, p.At row c st'.1 ∧ (c = k ∨ c ∈ done.map p.col)) _ (lIdx, data)
    ⟨hrep.congr hv (by intros; simp [schurM]), k, hl, Or.inl rfl⟩ (fun done a rest s el hP => by
      obtain ⟨hR, cprev, hprev, hcprev⟩ := hP
      obtain ⟨hlt, hmem'⟩ := split_cols hsort el
      rw [mem_idxRange] at hmem'
      obtain ⟨hat, hpata⟩ := at_of_bounds hv hk (i := a) (by omega) (by omega)
      have hka : k < p.col a := ((hmem (p.col a)).mp (List.mem_map.mpr ⟨a, mem_idxRange.mpr hmem', rfl⟩)).2
      have hcN := hv.range k _ hk hpata
      have hnd : p.col a ∉ done.map p.col := fun h => by have := hlt _ h; omega
      obtain ⟨i, hi⟩ := at_exists hv hrow (hv.closed row (p.col a) k hrow hcN hkr hka hpat hpata)
      have hprevlt : cprev < p.col a := by
        rcases hcprev with rfl | h
        · exact hka
        · exact hlt _ h
      have hidx := (at_lt_iff hv hprev hi).mpr hprevlt
      have hbp := at_bounds hv hprev
      have hbi := at_bounds hv hi
      have hf := findEntry_spec hv (first := s.1 + 1) (last := p.start (row + 1)) hrow hi (by omega) (by omega) (by omega) le_rfl
      have hkrow : k ≠ row := by omega
      obtain ⟨d1, w1, R1⟩ := rep_wr hv hR hrow hi
        (schurM k row l (done.map p.col) M row (p.col a) - l * schurM k row l (done.map p.col) M k (p.col a))
      refine ⟨(i, d1), ?_, R1.congr hv (fun r c hr hc _ => ?_), p.col a, hi, Or.inr (by simp)⟩
      · unfold schurStep
        simp only [bind, Except.bind]
        rw [if_neg (by omega), hf]
        simp only
        rw [rep_rd hR hrow hi, rep_rd hR hk hat]
        simp only
        rw [w1]
      · simp only [upd, schurM, List.map_append, List.map_cons, List.map_nil, List.mem_append, List.mem_singleton]
        by_cases h1 : r = row
        · by_cases h2 : c = p.col a
          · subst h1 h2; simp [hnd, hkrow]
          · simp [h1, h2]
        · simp [h1])
  exact ⟨st', e, h1⟩

theorem lower_loop (hv : p.Valid N pat) {k : Nat} (hk : k < N) (lu : Blk K n) (bp : BlockPerm n) (M : Nat → Nat → Blk K n)
    (st : LuState K n) (hrep : Rep p N st.data M) (hpos : CPos p N st.colPos (fun r => if r < k then k + 1 else k)) :
    ∃ st', (idxRange (p.diag k + 1) (p.start (k + 1))).foldlM (lowerStep p k lu bp) st = .ok st' ∧
      Rep p N st'.data (lowerM k lu bp (rightCols p k) (rightCols p k) M) ∧
      CPos p N st'.colPos (fun r => if r = k then k else k + 1) ∧ st'.perms = st.perms ∧ st'.flag = st.flag := by
  obtain ⟨hsort, hmem⟩ := rightCols_spec hv hk
  have hb := at_bounds hv (diag_at hv hk)
  obtain ⟨st', e, h1, h2, h3, h4⟩ := foldlM_induct (lowerStep p k lu bp)
    (fun done st' => Rep p N st'.data (lowerM k lu bp (rightCols p k) (done.map p.col) M) ∧
      CPos p N st'.colPos (fun r => if r < k ∨ r ∈ done.map p.col then k + 1 else k) ∧ st'.perms = st.perms ∧ st'.flag = st.flag) _ st
    ⟨hrep.congr hv (by intros; simp [lowerM]), by simpa using hpos, rfl, rfl⟩ (fun done a rest s el hP => by
      obtain ⟨hR, hC, hp, hf⟩ := hP
      obtain ⟨hlt, hmem'⟩ := split_cols hsort el
      rw [mem_idxRange] at hmem'
      obtain ⟨hat, hpata⟩ := at_of_bounds hv hk (i := a) (by omega) (by omega)
      have hka : k < p.col a := ((hmem (p.col a)).mp (List.mem_map.mpr ⟨a, mem_idxRange.mpr hmem', rfl⟩)).2
      have hcN := hv.range k _ hk hpata
      have hnd : p.col a ∉ done.map p.col := fun h => by have := hlt _ h; omega
      have hkd : k ∉ done.map p.col := by
        intro h
        have hmem2 : k ∈ rightCols p k := by
          unfold rightCols
          rw [el, List.map_append]
          exact List.mem_append_left _ h
        have := ((hmem k).mp hmem2).2
        omega
      have hsym := hv.symm k (p.col a) hk hpata
      obtain ⟨i, hi⟩ := at_exists hv hcN hsym
      have hbound : (fun r => if r < k ∨ r ∈ done.map p.col then k + 1 else k) (p.col a) = k := by
        simp only; rw [if_neg (by rintro (h | h); omega; exact hnd h)]
      have hi' : p.At (p.col a) ((fun r => if r < k ∨ r ∈ done.map p.col then k + 1 else k) (p.col a)) i := by rw [hbound]; exact hi
      have rd1 := cpos_rd hv hC hcN hi'
      obtain ⟨d1, w1, R1⟩ := rep_wr hv hR hcN hi (lowerBlock lu bp (lowerM k lu bp (rightCols p k) (done.map p.col) M (p.col a) k))
      obtain ⟨st1, w2, R2⟩ := schur_loop hv hk hcN hka hsym hi (lowerBlock lu bp (lowerM k lu bp (rightCols p k) (done.map p.col) M (p.col a) k)) _ d1 R1
      obtain ⟨cp, w3, C1⟩ := cpos_wr hv hC hcN hi'
      refine ⟨{ s with data := st1.2, colPos := cp }, ?_, ?_, ?_, hp, hf⟩
      · unfold lowerStep
        simp only [bind, Except.bind]
        rw [rd1]
        simp only
        rw [if_neg (by rw [not_not]; exact (at_bounds hv hi).2.2.1), rep_rd hR hcN hi]
        simp only
        rw [w1]
        simp only
        rw [w2]
        simp only
        rw [w3]
      · refine R2.congr hv (fun r c hr hc _ => ?_)
        have hak : p.col a ≠ k := by omega
        have hkR : k ∉ rightCols p k := fun h => by have := ((hmem k).mp h).2; omega
        simp only [upd, schurM, lowerM, List.map_append, List.map_cons, List.map_nil, List.mem_append, List.mem_singleton]
        by_cases hra : r = p.col a
        · subst hra
          by_cases hck : c = k
          · subst hck; simp [hnd, hkR]
          · by_cases hcR : c ∈ rightCols p k
            · simp [hnd, hck, hcR, hkd, hak.symm]
            · simp [hnd, hck, hcR]
        · simp [hra]
      · refine C1.congr (fun r hr c j hj => ?_)
        simp only [Function.update_apply, List.map_append, List.map_cons, List.map_nil, List.mem_append, List.mem_singleton]
        by_cases hra : r = p.col a
        · subst hra; simp [hnd, not_lt.mpr hka.le]
        · simp [hra])
  refine ⟨st', e, h1, h2.congr (fun r hr c i hi => ?_), h3, h4⟩
  have : r ∈ (idxRange (p.diag k + 1) (p.start (k + 1))).map p.col ↔ pat k r ∧ k < r := hmem r
  rcases Nat.lt_trichotomy r k with hrk | rfl | hrk
  · rw [if_pos (Or.inl hrk), if_neg (by omega)]
  · rw [if_neg (by rw [this]; omega), if_pos rfl]
  · rw [if_neg (c := r = k) (by omega)]
    by_cases hp : pat k r
    · rw [if_pos (Or.inr (this.mpr ⟨hp, hrk⟩))]
    · rw [if_neg (by rw [this]; rintro (h | ⟨h, _⟩); omega; exact hp h)]
      have hne : c ≠ k := fun h => hp (hv.symm r k hr (h ▸ at_pat hv hr hi))
      omega

/-- What the pivot `k` with factors `lu` and permutations `bp` does to the matrix. -/
noncomputable def stepM (k : Nat) (lu : Blk K n) (bp : BlockPerm n) (M : Nat → Nat → Blk K n) : Nat → Nat → Blk K n := fun r c =>
  if r = k then
    if c = k then lu else if c < k then permRows bp.p (M k c) else lsolve lu (permRows bp.p (M k c))
  else if c = k then
    if r < k then permCols (M r k) bp.q else lowerBlock lu bp (M r k)
  else if k < r ∧ k < c then M r c - lowerBlock lu bp (M r k) * lsolve lu (permRows bp.p (M k c))
  else M r c

/-- Blocks outside of the pattern are zero. -/
def ZeroOut (N : Nat) (pat : Nat → Nat → Prop) (M : Nat → Nat → Blk K n) : Prop := ∀ r c, r < N → c < N → ¬ pat r c → M r c = 0

theorem permRows_zero (q : Equiv.Perm (Fin n)) : permRows q (0 : Blk K n) = 0 := rfl

theorem permCols_zero (q : Equiv.Perm (Fin n)) : permCols (0 : Blk K n) q = 0 := rfl

theorem foldl_zero {V α : Type} [Zero V] (f : V → α → V) (hf : ∀ a, f 0 a = 0) (l : List α) : l.foldl f 0 = 0 := by
  induction l with
  | nil => rfl
  | cons a l ih => rw [List.foldl_cons, hf, ih]

theorem triSolve_zero (side : Side) (factor : Factor) (lu : Blk K n) : triSolve (V := Fin n → K) side factor lu 0 = 0 := by
  unfold triSolve
  refine foldl_zero _ (fun s => ?_) _
  simp only
  rw [foldl_zero _ (fun t => by simp)]
  split_ifs <;> simp

theorem lsolve_zero (lu : Blk K n) : lsolve lu 0 = 0 := triSolve_zero _ _ lu

theorem lowerBlock_zero (lu : Blk K n) (bp : BlockPerm n) : lowerBlock lu bp 0 = 0 := by
  unfold lowerBlock
  rw [permCols_zero, Matrix.transpose_zero]
  exact (congrArg Matrix.transpose (triSolve_zero .right .upper lu)).trans Matrix.transpose_zero

theorem lsolve_mul (lu u : Blk K n) : lowerUnit lu * lsolve lu u = u := by
  ext i j
  have := congrFun (left_lower (V := Fin n → K) lu u i) j
  rw [Finset.sum_apply] at this
  rw [Matrix.mul_apply]
  exact this

theorem lowerBlock_mul (lu : Blk K n) (hd : ∀ t, lu t t ≠ 0) (bp : BlockPerm n) (l : Blk K n) : lowerBlock lu bp l * upper lu = permCols l bp.q := by
  ext i j
  have := congrFun (right_upper (V := Fin n → K) lu hd (Matrix.transpose (permCols l bp.q)) j) i
  rw [Finset.sum_apply] at this
  rw [Matrix.mul_apply]
  refine Eq.trans (Finset.sum_congr rfl fun t _ => ?_) this
  rw [mul_comm]
  rfl

theorem pivot_step (hv : p.Valid N pat) {k : Nat} (hk : k < N) (thr : ℝ) (use : Bool) (M : Nat → Nat → Blk K n) (st : LuState K n)
    (hz : ZeroOut N pat M) (hrep : Rep p N st.data M) (hpos : CPos p N st.colPos (fun _ => k)) (hperm : st.perms.length = N) :
    (factorizeBlock thr use (M k k) st.flag = none ∧ pivotAt p thr use st k = .error .singular) ∨
    ∃ lu bp flag st', factorizeBlock thr use (M k k) st.flag = some (lu, bp, flag) ∧ pivotAt p thr use st k = .ok st' ∧
      Rep p N st'.data (stepM k lu bp M) ∧ ZeroOut N pat (stepM k lu bp M) ∧ CPos p N st'.colPos (fun _ => k + 1) ∧
      st'.perms = st.perms.set k bp ∧ st'.flag = flag := by
  have hd := diag_at hv hk
  unfold pivotAt
  simp only [bind, Except.bind]
  rw [rep_rd hrep hk hd]
  simp only
  cases hf : factorizeBlock thr use (M k k) st.flag with
  | none => left; exact ⟨rfl, rfl⟩
  | some f =>
    right
    obtain ⟨lu, bp, flag⟩ := f
    refine ⟨lu, bp, flag, ?_⟩
    obtain ⟨d1, w1, R1⟩ := rep_wr hv hrep hk hd lu
    have w2 : wr st.perms k bp = .ok (st.perms.set k bp) := by unfold wr; rw [if_pos (by omega)]
    obtain ⟨s1, w3, R2, C2, P2, F2⟩ := perm_loop hv hk bp (upd M k k lu) ⟨d1, st.colPos, st.perms.set k bp, flag⟩ R1 hpos
    obtain ⟨d2, w4, R3⟩ := upper_loop hv hk lu bp _ s1.data R2
    obtain ⟨s2, w5, R4, C4, P4, F4⟩ := lower_loop hv hk lu bp _ { s1 with data := d2 } R3 C2
    have hd' : p.At k ((fun r => if r = k then k else k + 1) k) (p.diag k) := by simpa using hd
    have w6 := cpos_rd hv C4 hk hd'
    obtain ⟨cp, w7, C5⟩ := cpos_wr hv C4 hk hd'
    refine ⟨{ s2 with colPos := cp }, rfl, ?_, ?_, ?_, ?_, P4.trans P2, F4.trans F2⟩
    · simp only
      rw [w1]
      simp only
      rw [w2]
      simp only
      rw [w3]
      simp only
      rw [w4]
      simp only
      rw [w5]
      simp only
      rw [w6]
      simp only
      rw [w7]
    · obtain ⟨_, hl⟩ := leftCols_spec hv hk
      obtain ⟨_, hr⟩ := rightCols_spec hv hk
      refine R4.congr hv (fun r c hrN hcN hpat => ?_)
      have hkl : k ∉ leftCols p k := fun h => by have := ((hl k).mp h).2; omega
      have hkr : k ∉ rightCols p k := fun h => by have := ((hr k).mp h).2; omega
      unfold stepM
      by_cases hrk : r = k
      · subst hrk
        rw [if_pos rfl]
        rcases Nat.lt_trichotomy c r with hc | rfl | hc
        · have h1 : c ∈ leftCols p r := (hl c).mpr ⟨hpat, hc⟩
          have h2 : c ∉ rightCols p r := fun h => by have := ((hr c).mp h).2; omega
          simp [lowerM, upperM, permM, upd, hkr, hc.ne, h1, h2, hc]
        · simp [lowerM, upperM, permM, upd, hkr, hkl]
        · have h1 : c ∉ leftCols p r := fun h => by have := ((hl c).mp h).2; omega
          have h2 : c ∈ rightCols p r := (hr c).mpr ⟨hpat, hc⟩
          simp [lowerM, upperM, permM, upd, hkr, hc.ne', h1, h2, not_lt.mpr hc.le]
      · rw [if_neg hrk]
        by_cases hck : c = k
        · subst hck
          rw [if_pos rfl]
          rcases Nat.lt_or_gt_of_ne hrk with h | h
          · have h1 : r ∈ leftCols p c := (hl r).mpr ⟨hv.symm r c hrN hpat, h⟩
            have h2 : r ∉ rightCols p c := fun h' => by have := ((hr r).mp h').2; omega
            simp [lowerM, upperM, permM, upd, hrk, h1, h2, h]
          · have h1 : r ∉ leftCols p c := fun h' => by have := ((hl r).mp h').2; omega
            have h2 : r ∈ rightCols p c := (hr r).mpr ⟨hv.symm r c hrN hpat, h⟩
            simp [lowerM, upperM, permM, upd, hrk, h1, h2, not_lt.mpr h.le]
        · rw [if_neg hck]
          by_cases hR : r ∈ rightCols p k
          · by_cases hC : c ∈ rightCols p k
            · have hkr' := ((hr r).mp hR).2
              have hkc' := ((hr c).mp hC).2
              have h1 : r ∉ leftCols p k := fun h' => by have := ((hl r).mp h').2; omega
              have h2 : c ∉ leftCols p k := fun h' => by have := ((hl c).mp h').2; omega
              simp [lowerM, upperM, permM, upd, hrk, hck, hR, hC, hkr', hkc', h1, h2]
            · have : k < c → M k c = 0 := fun h => hz k c hk hcN (fun hp => hC ((hr c).mpr ⟨hp, h⟩))
              by_cases hkc : k < c
              · simp [lowerM, upperM, permM, upd, hrk, hck, hR, hC, this hkc, permRows_zero, lsolve_zero]
              · simp [lowerM, upperM, permM, upd, hrk, hck, hR, hC, hkc]
          · by_cases hkr' : k < r
            · have : M r k = 0 := hz r k hrN hk (fun hp => hR ((hr r).mpr ⟨hv.symm r k hrN hp, hkr'⟩))
              simp [lowerM, upperM, permM, upd, hrk, hck, hR, this, lowerBlock_zero]
            · simp [lowerM, upperM, permM, upd, hrk, hck, hR, hkr']
    · intro r c hrN hcN hpat
      unfold stepM
      by_cases hrk : r = k
      · subst hrk
        have hcr : c ≠ r := fun h => hpat (by rw [h]; exact pat_diag hv hk)
        rw [if_pos rfl, if_neg hcr, hz r c hk hcN hpat, permRows_zero, lsolve_zero]
        split_ifs <;> rfl
      · rw [if_neg hrk]
        by_cases hck : c = k
        · subst hck
          rw [if_pos rfl, hz r c hrN hk hpat, permCols_zero, lowerBlock_zero]
          split_ifs <;> rfl
        · rw [if_neg hck, hz r c hrN hcN hpat]
          split_ifs with h
          · by_cases h1 : pat r k
            · have h2 : ¬ pat k c := fun h2 => hpat (hv.closed r c k hrN hcN h.1 h.2 h1 h2)
              rw [hz k c hk hcN h2, permRows_zero, lsolve_zero, mul_zero, sub_zero]
            · rw [hz r k hrN hk h1, lowerBlock_zero, zero_mul, sub_zero]
          · rfl
    · refine C5.congr (fun r hr c i _ => ?_)
      simp only [Function.update_apply]
      by_cases h : r = k <;> simp [h]

end PGM.Lu
