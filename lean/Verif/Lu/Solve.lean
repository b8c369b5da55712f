import Verif.Lu.Algebra

/-!
# The substitutions
-/

namespace PGM.Lu

variable {K : Type} [RCLike K] {n : Nat} {p : Pattern} {N : Nat} {pat : Nat → Nat → Prop}

/-- The vector holds `X`. -/
structure VRep (N : Nat) (x : List (Fin n → K)) (X : Nat → Fin n → K) : Prop where
  len : x.length = N
  val : ∀ r, r < N → x[r]? = some (X r)

theorem vrep_rd {x : List (Fin n → K)} {X : Nat → Fin n → K} (h : VRep N x X) {r : Nat} (hr : r < N) : rd x r = .ok (X r) := by
  unfold rd; rw [h.val r hr]

theorem vrep_wr {x : List (Fin n → K)} {X : Nat → Fin n → K} (h : VRep N x X) {r : Nat} (hr : r < N) (v : Fin n → K) :
    ∃ x', wr x r v = .ok x' ∧ VRep N x' (Function.update X r v) := by
  refine ⟨x.set r v, by unfold wr; rw [if_pos (by rw [h.len]; exact hr)], by rw [List.length_set, h.len], fun r' hr' => ?_⟩
  by_cases e : r = r'
  · subst e; rw [List.getElem?_set_self (by rw [h.len]; exact hr), Function.update_self]
  · rw [List.getElem?_set_ne e, Function.update_of_ne (Ne.symm e)]; exact h.val r' hr'

theorem sum_cols {V : Type} [AddCommMonoid V] (l : List Nat) (hl : l.Nodup) (F : Nat → V) (S : Finset Nat) (h1 : ∀ c ∈ l, c ∈ S)
    (h2 : ∀ c ∈ S, c ∉ l → F c = 0) : (l.map F).sum = ∑ c ∈ S, F c := by
  rw [← List.sum_toFinset F hl]
  refine Finset.sum_subset (fun c hc => h1 c (List.mem_toFinset.mp hc)) (fun c hc hn => h2 c hc (fun h => hn (List.mem_toFinset.mpr h)))

/-- A loop that subtracts the products of a row. -/
theorem entry_loop (hv : p.Valid N pat) {M : Nat → Nat → Blk K n} {data : List (Blk K n)} (R : Rep p N data M) {r : Nat} (hr : r < N)
    {x : List (Fin n → K)} {X : Nat → Fin n → K} (hx : VRep N x X) (f : (Fin n → K) → Nat → Except Err (Fin n → K)) (l : List Nat)
    (hl : ∀ i ∈ l, p.start r ≤ i ∧ i < p.start (r + 1))
    (hf : ∀ acc, ∀ i ∈ l, f acc i = (rd data i).bind fun a => (rd x (p.col i)).bind fun xc => .ok (acc - a.mulVec xc)) (acc : Fin n → K) :
    l.foldlM f acc = .ok (acc - ((l.map p.col).map fun c => (M r c).mulVec (X c)).sum) := by
  induction l generalizing acc with
  | nil => simp [pure, Except.pure]
  | cons i l ih =>
    have hi := hl i (by simp)
    obtain ⟨hat, hpat⟩ := at_of_bounds hv hr hi.1 hi.2
    rw [List.foldlM_cons, hf acc i (by simp), rep_rd R hr hat, Except.bind, vrep_rd hx (hv.range r _ hr hpat), Except.bind]
    simp only [bind, Except.bind]
    rw [ih (fun j hj => hl j (by simp [hj])) (fun acc j hj => hf acc j (by simp [hj]))]
    simp [sub_sub]

theorem forward_loop (hv : p.Valid N pat) {M : Nat → Nat → Blk K n} {f : Factors K n} (R : Rep p N f.data M) (Z : ZeroOut N pat M)
    {bps : Nat → BlockPerm n} (hP : ∀ r, r < N → f.perms[r]? = some (bps r)) (rhs : Option (List (Fin n → K))) (x : List (Fin n → K))
    (B X : Nat → Fin n → K) (hx : VRep N x X) (hB : VRep N (rhs.getD x) B) :
    ∃ y Y, (List.range N).foldlM (forwardRow p f rhs) x = .ok y ∧ VRep N y Y ∧
      ∀ r, r < N → (∑ c ∈ Finset.range r, (M r c).mulVec (Y c)) + (lowerUnit (M r r)).mulVec (Y r) = permVec (bps r).p (B r) := by
  obtain ⟨y, e, Y, h1, h2, h3⟩ := foldlM_range_induct (forwardRow p f rhs)
    (fun k y => ∃ Y, VRep N y Y ∧ (∀ r, k ≤ r → r < N → Y r = X r) ∧ ∀ r, r < k →
      (∑ c ∈ Finset.range r, (M r c).mulVec (Y c)) + (lowerUnit (M r r)).mulVec (Y r) = permVec (bps r).p (B r)) N x
    ⟨X, hx, fun _ _ _ => rfl, fun r hr => absurd hr (Nat.not_lt_zero r)⟩ (fun k y hk hI => by
      obtain ⟨Y, hY, hrest, hdone⟩ := hI
      have hb : rd (rhs.getD y) k = .ok (B k) := by
        cases rhs with
        | some b => exact vrep_rd hB hk
        | none =>
          have h1 : B k = X k := by
            have a1 := hB.val k hk
            have a2 := hx.val k hk
            simp only [Option.getD_none] at a1
            rw [a1] at a2
            injection a2
          rw [h1, ← hrest k le_rfl hk]
          exact vrep_rd hY hk
      obtain ⟨hs, hm⟩ := leftCols_spec hv hk
      have hbd := at_bounds hv (diag_at hv hk)
      have hloop := entry_loop hv R hk hY (forwardEntry p f.data k y) (idxRange (p.start k) (p.diag k))
        (fun i hi => by rw [mem_idxRange] at hi; omega)
        (fun acc i hi => by
          unfold forwardEntry
          rw [if_neg]
          · rfl
          · have := ((hm (p.col i)).mp (List.mem_map.mpr ⟨i, hi, rfl⟩)).2; omega) (permVec (bps k).p (B k))
      have hsum : (((idxRange (p.start k) (p.diag k)).map p.col).map fun c => (M k c).mulVec (Y c)).sum =
          ∑ c ∈ Finset.range k, (M k c).mulVec (Y c) := by
        refine sum_cols _ (hs.imp fun h => Nat.ne_of_lt h) _ _ (fun c hc => Finset.mem_range.mpr ((hm c).mp hc).2) (fun c hc hn => ?_)
        have hck := Finset.mem_range.mp hc
        rw [Z k c hk (by omega) (fun hp => hn ((hm c).mpr ⟨hp, hck⟩)), Matrix.zero_mulVec]
      rw [hsum] at hloop
      set acc := permVec (bps k).p (B k) - ∑ c ∈ Finset.range k, (M k c).mulVec (Y c) with hacc
      obtain ⟨y', w, hY'⟩ := vrep_wr hY hk (triSolve .left .lower (M k k) acc)
      have hsolve : (lowerUnit (M k k)).mulVec (triSolve .left .lower (M k k) acc) = acc := by
        funext t
        exact left_lower (M k k) acc t
      refine ⟨y', ?_, _, hY', fun r h1 h2 => ?_, fun r hr => ?_⟩
      · unfold forwardRow
        have hbp : rd f.perms k = .ok (bps k) := by unfold rd; rw [hP k hk]
        simp only [bind, Except.bind]
        rw [hbp]
        simp only
        rw [hb]
        simp only
        rw [hloop]
        simp only
        rw [rep_rd R hk (diag_at hv hk)]
        exact w
      · rw [Function.update_of_ne (by omega)]; exact hrest r (by omega) h2
      · have hne : ∀ c ∈ Finset.range r, (M r c).mulVec (Function.update Y k (triSolve .left .lower (M k k) acc) c) = (M r c).mulVec (Y c) := by
          intro c hc
          have := Finset.mem_range.mp hc
          rw [Function.update_of_ne (by omega)]
        rw [Finset.sum_congr rfl hne]
        by_cases hrk : r = k
        · subst hrk
          rw [Function.update_self, hsolve, hacc]
          abel
        · rw [Function.update_of_ne hrk]
          exact hdone r (by omega))
  exact ⟨y, Y, e, h1, h3⟩

theorem backward_loop (hv : p.Valid N pat) {M : Nat → Nat → Blk K n} {f : Factors K n} (R : Rep p N f.data M) (Z : ZeroOut N pat M)
    (hd : ∀ r, r < N → ∀ t, M r r t t ≠ 0) (x : List (Fin n → K)) (X : Nat → Fin n → K) (hx : VRep N x X) :
    ∃ y Y, (List.range N).reverse.foldlM (backwardRow p f) x = .ok y ∧ VRep N y Y ∧
      ∀ r, r < N → (upper (M r r)).mulVec (Y r) + (∑ c ∈ Finset.Ioo r N, (M r c).mulVec (Y c)) = X r := by
  obtain ⟨y, e, Y, h1, h2, h3⟩ := foldlM_range_reverse (backwardRow p f)
    (fun k y => ∃ Y, VRep N y Y ∧ (∀ r, r < k → Y r = X r) ∧ ∀ r, k ≤ r → r < N →
      (upper (M r r)).mulVec (Y r) + (∑ c ∈ Finset.Ioo r N, (M r c).mulVec (Y c)) = X r) N x
    ⟨X, hx, fun _ _ => rfl, fun r h1 h2 => absurd h2 (by omega)⟩ (fun k y hk hI => by
      obtain ⟨Y, hY, hrest, hdone⟩ := hI
      obtain ⟨hs, hm⟩ := rightCols_spec hv hk
      have hbd := at_bounds hv (diag_at hv hk)
      have hloop := entry_loop hv R hk hY (backwardEntry p f.data k y) (idxRange (p.diag k + 1) (p.start (k + 1))).reverse
        (fun i hi => by rw [List.mem_reverse, mem_idxRange] at hi; omega)
        (fun acc i hi => by
          unfold backwardEntry
          rw [if_neg]
          · rfl
          · have := ((hm (p.col i)).mp (List.mem_map.mpr ⟨i, List.mem_reverse.mp hi, rfl⟩)).2; omega) (Y k)
      have hsum : (((idxRange (p.diag k + 1) (p.start (k + 1))).reverse.map p.col).map fun c => (M k c).mulVec (Y c)).sum =
          ∑ c ∈ Finset.Ioo k N, (M k c).mulVec (Y c) := by
        rw [List.map_reverse, List.map_reverse, List.sum_reverse]
        refine sum_cols _ (hs.imp fun h => Nat.ne_of_lt h) _ _ (fun c hc => ?_) (fun c hc hn => ?_)
        · have := (hm c).mp hc
          exact Finset.mem_Ioo.mpr ⟨this.2, hv.range k c hk this.1⟩
        · have hck := Finset.mem_Ioo.mp hc
          rw [Z k c hk hck.2 (fun hp => hn ((hm c).mpr ⟨hp, hck.1⟩)), Matrix.zero_mulVec]
      rw [hsum] at hloop
      set acc := Y k - ∑ c ∈ Finset.Ioo k N, (M k c).mulVec (Y c) with hacc
      obtain ⟨y', w, hY'⟩ := vrep_wr hY hk (triSolve .left .upper (M k k) acc)
      have hsolve : (upper (M k k)).mulVec (triSolve .left .upper (M k k) acc) = acc := by
        funext t
        exact left_upper (M k k) (hd k hk) acc t
      refine ⟨y', ?_, _, hY', fun r hr => ?_, fun r h1 h2 => ?_⟩
      · unfold backwardRow
        simp only [bind, Except.bind]
        rw [vrep_rd hY hk]
        simp only
        rw [hloop]
        simp only
        rw [rep_rd R hk (diag_at hv hk)]
        exact w
      · rw [Function.update_of_ne (by omega)]; exact hrest r (by omega)
      · have hne : ∀ c ∈ Finset.Ioo r N, (M r c).mulVec (Function.update Y k (triSolve .left .upper (M k k) acc) c) = (M r c).mulVec (Y c) := by
          intro c hc
          have := Finset.mem_Ioo.mp hc
          rw [Function.update_of_ne (by omega)]
        rw [Finset.sum_congr rfl hne]
        by_cases hrk : r = k
        · subst hrk
          rw [Function.update_self, hsolve, hacc, hrest r (by omega)]
          abel
        · rw [Function.update_of_ne hrk]
          exact hdone r (by omega) h2)
  exact ⟨y, Y, e, h1, fun r hr => h3 r (Nat.zero_le r) hr⟩

theorem restore_loop {f : Factors K n} {bps : Nat → BlockPerm n} (hP : ∀ r, r < N → f.perms[r]? = some (bps r)) (x : List (Fin n → K))
    (X : Nat → Fin n → K) (hx : VRep N x X) :
    ∃ y, (List.range N).foldlM (restoreRow f) x = .ok y ∧ VRep N y (fun r => permVec (bps r).q (X r)) := by
  obtain ⟨y, e, Y, h1, h2⟩ := foldlM_range_induct (restoreRow f)
    (fun k y => ∃ Y, VRep N y Y ∧ ∀ r, r < N → Y r = if r < k then permVec (bps r).q (X r) else X r) N x
    ⟨X, hx, fun _ _ => by simp⟩ (fun k y hk hI => by
      obtain ⟨Y, hY, hval⟩ := hI
      obtain ⟨y', w, hY'⟩ := vrep_wr hY hk (permVec (bps k).q (X k))
      refine ⟨y', ?_, _, hY', fun r hr => ?_⟩
      · unfold restoreRow
        have hbp : rd f.perms k = .ok (bps k) := by unfold rd; rw [hP k hk]
        simp only [bind, Except.bind]
        rw [hbp]
        simp only
        rw [vrep_rd hY hk]
        simp only
        rw [hval k hk, if_neg (Nat.lt_irrefl k)]
        exact w
      · by_cases h : r = k
        · subst h; rw [Function.update_self, if_pos (by omega)]
        · rw [Function.update_of_ne h, hval r hr]
          have : r < k ↔ r < k + 1 := by omega
          simp [this])
  refine ⟨y, e, h1.len, fun r hr => ?_⟩
  rw [h1.val r hr, h2 r hr, if_pos hr]

/-! ## The solution of the system -/

theorem permVec_injective (q : Equiv.Perm (Fin n)) (v w : Fin n → K) (h : permVec q v = permVec q w) : v = w := by
  funext t
  have := congrFun h (q t)
  simpa [permVec] using this

theorem permuted_mulVec (P Q : Equiv.Perm (Fin n)) (A : Blk K n) (z : Fin n → K) :
    (permRows P (permCols A Q)).mulVec z = permVec P (A.mulVec (permVec Q z)) := by
  funext t
  show ∑ s, A (P.symm t) (Q s) * z s = ∑ s, A (P.symm t) s * z (Q.symm s)
  refine Eq.trans ?_ (Equiv.sum_comp Q (fun s => A (P.symm t) s * z (Q.symm s)))
  exact Finset.sum_congr rfl fun s _ => (congrArg (fun u => A (P.symm t) (Q s) * z u) (Q.symm_apply_apply s)).symm

theorem sum_mulVec {ι : Type} (s : Finset ι) (A : ι → Blk K n) (v : Fin n → K) : (∑ m ∈ s, A m).mulVec v = ∑ m ∈ s, (A m).mulVec v := by
  classical
  induction s using Finset.induction_on with
  | empty => simp
  | insert a s ha ih => rw [Finset.sum_insert ha, Finset.sum_insert ha, Matrix.add_mulVec, ih]

theorem mulVec_sum {ι : Type} (s : Finset ι) (A : Blk K n) (v : ι → Fin n → K) : A.mulVec (∑ m ∈ s, v m) = ∑ m ∈ s, A.mulVec (v m) := by
  classical
  induction s using Finset.induction_on with
  | empty => simp
  | insert a s ha ih => rw [Finset.sum_insert ha, Finset.sum_insert ha, Matrix.mulVec_add, ih]

theorem permVec_sum (q : Equiv.Perm (Fin n)) {ι : Type} (s : Finset ι) (v : ι → Fin n → K) :
    permVec q (∑ m ∈ s, v m) = ∑ m ∈ s, permVec q (v m) := by
  funext t
  simp [permVec, Finset.sum_apply]

/-- The perturbation of the diagonal block in the original order. -/
def blockE (bp : BlockPerm n) (e : Fin n → K) : Blk K n := fun s t => if bp.q.symm t = bp.p s then e (bp.p s) else 0

theorem blockE_mulVec (bp : BlockPerm n) (e z : Fin n → K) : permVec bp.p ((blockE bp e).mulVec (permVec bp.q z)) = (Matrix.diagonal e).mulVec z := by
  funext t
  simp only [permVec, Matrix.mulVec, dotProduct, blockE, Matrix.diagonal_apply]
  rw [← Equiv.sum_comp bp.q]
  simp

theorem factors_solve {A M : Nat → Nat → Blk K n} {bps : Nat → BlockPerm n} {e : Nat → Fin n → K}
    (hfac : ∀ i j, permuted bps N A i j + (if i = j ∧ i < N then Matrix.diagonal (e i) else 0) =
      (∑ m ∈ Finset.range N, lowerF M i m * upperF M m j) + remains M N i j)
    {B Y W : Nat → Fin n → K}
    (hf : ∀ r, r < N → (∑ c ∈ Finset.range r, (M r c).mulVec (Y c)) + (lowerUnit (M r r)).mulVec (Y r) = permVec (bps r).p (B r))
    (hb : ∀ r, r < N → (upper (M r r)).mulVec (W r) + (∑ c ∈ Finset.Ioo r N, (M r c).mulVec (W c)) = Y r) (r : Nat) (hr : r < N) :
    (∑ c ∈ Finset.range N, (A r c).mulVec (permVec (bps c).q (W c))) + (blockE (bps r) (e r)).mulVec (permVec (bps r).q (W r)) = B r := by
  apply permVec_injective (bps r).p
  have hU : ∀ m, m < N → ∑ c ∈ Finset.range N, (upperF M m c).mulVec (W c) = Y m := by
    intro m hm
    rw [← hb m hm]
    have hsplit : Finset.range N = insert m (Finset.Ioo m N) ∪ Finset.range m := by
      ext c; simp only [Finset.mem_range, Finset.mem_union, Finset.mem_insert, Finset.mem_Ioo]; omega
    have hdisj : Disjoint (insert m (Finset.Ioo m N)) (Finset.range m) := by
      rw [Finset.disjoint_left]; intro c; simp only [Finset.mem_range, Finset.mem_insert, Finset.mem_Ioo]; omega
    rw [hsplit, Finset.sum_union hdisj, Finset.sum_insert (by simp)]
    have h1 : ∑ c ∈ Finset.range m, (upperF M m c).mulVec (W c) = 0 := by
      apply Finset.sum_eq_zero
      intro c hc
      have := Finset.mem_range.mp hc
      rw [show upperF M m c = 0 by unfold upperF; rw [if_neg (by omega), if_neg (by omega)], Matrix.zero_mulVec]
    rw [h1, add_zero]
    congr 1
    · simp [upperF]
    · apply Finset.sum_congr rfl
      intro c hc
      have := Finset.mem_Ioo.mp hc
      simp [upperF, this.1]
  have hL : ∑ m ∈ Finset.range N, (lowerF M r m).mulVec (Y m) = permVec (bps r).p (B r) := by
    rw [← hf r hr]
    have hsplit : Finset.range N = insert r (Finset.range r) ∪ Finset.Ioo r N := by
      ext c; simp only [Finset.mem_range, Finset.mem_union, Finset.mem_insert, Finset.mem_Ioo]; omega
    have hdisj : Disjoint (insert r (Finset.range r)) (Finset.Ioo r N) := by
      rw [Finset.disjoint_left]; intro c; simp only [Finset.mem_range, Finset.mem_insert, Finset.mem_Ioo]; omega
    rw [hsplit, Finset.sum_union hdisj, Finset.sum_insert (by simp)]
    have h1 : ∑ c ∈ Finset.Ioo r N, (lowerF M r c).mulVec (Y c) = 0 := by
      apply Finset.sum_eq_zero
      intro c hc
      have := Finset.mem_Ioo.mp hc
      rw [show lowerF M r c = 0 by unfold lowerF; rw [if_neg (by omega), if_neg (by omega)], Matrix.zero_mulVec]
    rw [h1, add_zero, add_comm]
    congr 1
    · apply Finset.sum_congr rfl
      intro c hc
      have := Finset.mem_range.mp hc
      simp [lowerF, this]
    · simp [lowerF]
  have hadd : ∀ a b : Fin n → K, permVec (bps r).p (a + b) = permVec (bps r).p a + permVec (bps r).p b := fun _ _ => rfl
  rw [hadd, permVec_sum, blockE_mulVec, ← hL]
  have hP : ∀ c ∈ Finset.range N, permVec (bps r).p ((A r c).mulVec (permVec (bps c).q (W c))) = (permuted bps N A r c).mulVec (W c) := by
    intro c hc
    have := Finset.mem_range.mp hc
    unfold permuted
    simp only [hr, this, if_true]
    exact (permuted_mulVec (bps r).p (bps c).q (A r c) (W c)).symm
  rw [Finset.sum_congr rfl hP]
  have hdiag : (Matrix.diagonal (e r)).mulVec (W r) =
      ∑ c ∈ Finset.range N, (if r = c ∧ r < N then Matrix.diagonal (e r) else 0 : Blk K n).mulVec (W c) := by
    rw [Finset.sum_eq_single r]
    · simp [hr]
    · intro c _ hc
      rw [if_neg (by tauto), Matrix.zero_mulVec]
    · intro h; exact absurd (Finset.mem_range.mpr hr) h
  rw [hdiag, ← Finset.sum_add_distrib]
  have hstep : ∀ c ∈ Finset.range N, (permuted bps N A r c).mulVec (W c) + (if r = c ∧ r < N then Matrix.diagonal (e r) else 0 : Blk K n).mulVec (W c) =
      ∑ m ∈ Finset.range N, (lowerF M r m).mulVec ((upperF M m c).mulVec (W c)) := by
    intro c hc
    have hrem : remains M N r c = 0 := by unfold remains; rw [if_neg (by omega)]
    rw [← Matrix.add_mulVec, hfac r c, hrem, add_zero, sum_mulVec]
    apply Finset.sum_congr rfl
    intro m _
    rw [Matrix.mulVec_mulVec]
  rw [Finset.sum_congr rfl hstep, Finset.sum_comm]
  apply Finset.sum_congr rfl
  intro m hm
  rw [← hU m (Finset.mem_range.mp hm), mulVec_sum]

end PGM.Lu
