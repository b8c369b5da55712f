import Verif.StateEst.Spec

/-!
# The blocks of the gain matrix and of the right-hand side, tested against arbitrary voltages

Lemmas for C52.
-/

namespace PGM.StateEst

open PGM.YBus PGM.Lu PGM.PowerFlow Matrix

variable {s : Symm}

/-! ## Sums -/

theorem sum_range_list {V : Type} [AddCommMonoid V] (n : Nat) (f : Nat → V) : ∑ b ∈ Finset.range n, f b = ((List.range n).map f).sum := by
  induction n with
  | zero => simp
  | succ n ih => rw [Finset.sum_range_succ, ih, List.range_succ, List.map_append, List.sum_append]; simp

theorem sum_filterMap {A B C V : Type} [AddCommMonoid V] (l : List A) (o : A → Option B) (f : A → B → C) (g : C → V) :
    ((l.filterMap fun a => (o a).map (f a)).map g).sum = (l.map fun a => (o a).elim 0 fun m => g (f a m)).sum := by
  induction l with
  | nil => rfl
  | cons a l ih =>
    rw [List.filterMap_cons]
    cases h : o a with
    | none => simp [h, ih]
    | some m => simp [h, ih]

theorem sum_toList {B C V : Type} [AddCommMonoid V] (o : Option B) (f : B → C) (g : C → V) :
    (((o.map f).toList).map g).sum = o.elim 0 fun m => g (f m) := by
  cases o <;> simp

theorem sum_add_map {A V : Type} [AddCommMonoid V] (l : List A) (f g : A → V) :
    (l.map fun a => f a + g a).sum = (l.map f).sum + (l.map g).sum := by
  induction l with
  | nil => simp
  | cons a l ih => simp [ih, add_add_add_comm]

/-! ## Products -/

/-- The sesquilinear product of two values. -/
def ip (a b : CV s) : ℂ := star a ⬝ᵥ b

theorem ip_add (a b c : CV s) : ip a (b + c) = ip a b + ip a c := dotProduct_add _ _ _
theorem add_ip (a b c : CV s) : ip (a + b) c = ip a c + ip b c := by unfold ip; rw [star_add, add_dotProduct]
theorem ip_zero (a : CV s) : ip a 0 = 0 := dotProduct_zero _
theorem zero_ip (a : CV s) : ip 0 a = 0 := by unfold ip; rw [star_zero, zero_dotProduct]
theorem ip_neg (a b : CV s) : ip a (-b) = -ip a b := dotProduct_neg _ _
theorem neg_ip (a b : CV s) : ip (-a) b = -ip a b := by unfold ip; rw [star_neg, neg_dotProduct]

theorem ip_list {A : Type} (a : CV s) (l : List A) (f : A → CV s) : ip a (l.map f).sum = (l.map fun x => ip a (f x)).sum := by
  induction l with
  | nil => exact ip_zero a
  | cons x l ih => rw [List.map_cons, List.sum_cons, ip_add, ih, List.map_cons, List.sum_cons]

theorem ip_sum {A : Type} (a : CV s) (l : Finset A) (f : A → CV s) : ip a (∑ x ∈ l, f x) = ∑ x ∈ l, ip a (f x) :=
  dotProduct_sum _ _ _

theorem ip_adjoint (A : CM s) (a b : CV s) : ip a (A.conjTranspose.mulVec b) = ip (A.mulVec a) b := by
  unfold ip
  rw [dotProduct_mulVec, star_mulVec]

/-- Weighting with variances. -/
noncomputable def weigh (v : Fin s.phases → ℝ) (a : CV s) : CV s := (diagonalInverse v).mulVec a

theorem weigh_apply (v : Fin s.phases → ℝ) (a : CV s) (p : Fin s.phases) : weigh v a p = ((1 / v p : ℝ) : ℂ) * a p := by
  unfold weigh diagonalInverse
  rw [mulVec_diagonal]

theorem weigh_add (v : Fin s.phases → ℝ) (a b : CV s) : weigh v (a + b) = weigh v a + weigh v b := mulVec_add _ _ _

/-! ## Testing a nodal matrix -/

theorem nodal_row {T : Topo} (hv : T.Valid) {S : YBus.Structure} (hS : build T = some S) (P : Param (CM s)) (u : Nat → CV s) (r : Nat)
    (hr : r < T.nBus) : nodalCurrent T P u r =
      (T.branches.zipIdx.map fun b => (if b.1.1 = some r then fromCurrent P b u else 0) + (if b.1.2 = some r then toCurrent P b u else 0)).sum +
      (T.shuntBus.zipIdx.map fun x => if x.1 = r then (P.shunt x.2).mulVec (u x.1) else 0).sum := by
  have hy := coherent_updateAdmittance S ⟨[], P, fun _ => [], fun _ => []⟩ P
  have h1 := busCurrent_eq hv hS hy.1 (dot s) u r hr
  have h2 := busCurrent_is_flow_of hv hS hy.1 (dot s) u r hr
  rw [h2, hy.2] at h1
  unfold nodalCurrent
  refine h1.symm.trans ?_
  rw [sub_eq_add_neg]
  congr 1
  · unfold intoBranches branchFlow
    rw [zipIdx_zip, List.map_map]
    rfl
  · unfold fromShunts
    obtain ⟨hlen, hval⟩ := shuntFlow_spec T hv P (dot s) u
    have hsf : shuntFlow T P (dot s) u = T.shuntBus.zipIdx.map fun x => -(dot s (P.shunt x.2) (u x.1)) := by
      apply List.ext_getElem?
      intro k
      by_cases hk : k < T.shuntBus.length
      · have : T.shuntBus[k]? = some T.shuntBus[k] := List.getElem?_eq_getElem hk
        rw [hval k _ this, List.getElem?_map, List.getElem?_zipIdx, this]
        simp
      · rw [List.getElem?_eq_none (by omega), List.getElem?_eq_none (by simp; omega)]
    rw [hsf, zipIdx_zip, List.map_map]
    have hneg : ∀ l : List (CV s), -l.sum = (l.map fun x => -x).sum := by
      intro l
      induction l with
      | nil => simp
      | cons a l ih => simp [← ih, add_comm]
    rw [hneg, List.map_map]
    congr 1
    apply List.map_congr_left
    rintro ⟨b, k⟩ _
    simp only [Function.comp]
    split_ifs
    · rw [neg_neg]; rfl
    · rw [neg_zero]

theorem sum_pick {V : Type} [AddCommMonoid V] (n : Nat) (o : Option Nat) (ho : ∀ r, o = some r → r < n) (f : Nat → V) :
    ∑ r ∈ Finset.range n, (if o = some r then f r else 0) = o.elim 0 f := by
  cases o with
  | none => simp
  | some b =>
    rw [Finset.sum_eq_single_of_mem b (Finset.mem_range.mpr (ho b rfl))]
    · simp
    · intro c _ hne
      rw [if_neg (fun e => hne (Option.some.inj e).symm)]

theorem side_ip (w : Nat → CV s) (o : Option Nat) (x : CV s) : (o.elim 0 fun r => ip (w r) x) = ip (sideVoltage w o) x := by
  cases o with
  | none => exact (zero_ip x).symm
  | some r => rfl

/-- Distributing values over the ends of branches and over the buses of shunts, and testing the sums at all buses. -/
theorem test_distributed {T : Topo} (hv : T.Valid) (w : Nat → CV s) (F G : (Option Nat × Option Nat) × Nat → CV s) (H : Nat × Nat → CV s) :
    ∑ r ∈ Finset.range T.nBus, ip (w r)
      ((T.branches.zipIdx.map fun b => (if b.1.1 = some r then F b else 0) + (if b.1.2 = some r then G b else 0)).sum +
       (T.shuntBus.zipIdx.map fun x => if x.1 = r then H x else 0).sum) =
      (T.branches.zipIdx.map fun b => ip (sideVoltage w b.1.1) (F b) + ip (sideVoltage w b.1.2) (G b)).sum +
      (T.shuntBus.zipIdx.map fun x => ip (w x.1) (H x)).sum := by
  simp only [ip_add, ip_list, Finset.sum_add_distrib]
  rw [sum_swap, sum_swap]
  congr 1
  · congr 1
    apply List.map_congr_left
    rintro ⟨⟨f, t⟩, k⟩ hb
    have hbr := hv.branchRange (f, t) (List.mem_of_getElem? (List.mem_zipIdx_iff_getElem?.mp hb))
    have e : ∀ (o : Option Nat) (x : CV s), (∀ r, o = some r → r < T.nBus) →
        ∑ r ∈ Finset.range T.nBus, ip (w r) (if o = some r then x else 0) = ip (sideVoltage w o) x := by
      intro o x ho
      rw [← side_ip, ← sum_pick T.nBus o ho (fun r => ip (w r) x)]
      apply Finset.sum_congr rfl
      intro r _
      split_ifs
      · rfl
      · exact ip_zero _
    simp only [Finset.sum_add_distrib]
    rw [e f _ hbr.1, e t _ hbr.2]
  · congr 1
    apply List.map_congr_left
    rintro ⟨b, k⟩ hs
    have hsr := hv.shuntRange b (List.mem_of_getElem? (List.mem_zipIdx_iff_getElem?.mp hs))
    rw [Finset.sum_eq_single_of_mem b (Finset.mem_range.mpr hsr)]
    · simp
    · intro c _ hne
      rw [if_neg (fun e => hne e.symm)]
      exact ip_zero _

/-! ## The blocks of one branch -/

/-- The contribution of a sensor with the given variance. -/
noncomputable def wt (P : Param (CM s)) (k : Nat) (side b0 b1 : Fin 2) : Option (Fin s.phases → ℝ) → CM s
  | some v => (branchValue P k side b0).conjTranspose * diagonalInverse v * branchValue P k side b1
  | none => 0

/-- The variance of the power sensors of a side. -/
def powerVar (M : Measured s) (side : Fin 2) (k : Nat) : Option (Fin s.phases → ℝ) := (M.branchPower side k).map fun m => m.vp + m.vq

/-- The variance of the current sensors of a side. -/
def curVar (M : Measured s) (side : Fin 2) (k : Nat) : Option (Fin s.phases → ℝ) := (M.branchCurrent side k).map fun m => m.vr + m.vi

/-- All sensors of a branch. -/
noncomputable def branchGain (P : Param (CM s)) (M : Measured s) (b0 b1 : Fin 2) (k : Nat) : CM s :=
  wt P k 0 b0 b1 (powerVar M 0 k) + wt P k 0 b0 b1 (curVar M 0 k) + wt P k 1 b0 b1 (powerVar M 1 k) + wt P k 1 b0 b1 (curVar M 1 k)

/-- The parameters of the gain matrix as a nodal matrix. -/
noncomputable def gainParam (P : Param (CM s)) (M : Measured s) : Param (CM s) where
  ff := branchGain P M 0 0
  ft := branchGain P M 0 1
  tf := branchGain P M 1 0
  tt := branchGain P M 1 1
  shunt k := gainShunt P M k 0

theorem gainPower_eq (P : Param (CM s)) (M : Measured s) (k : Nat) (b : Fin 2 × Fin 2) (g : CM s) (side : Fin 2) :
    gainPower P M k b g side = g + wt P k side b.1 b.2 (powerVar M side k) := by
  unfold gainPower powerVar
  cases M.branchPower side k with
  | none => simp [wt]
  | some m => rfl

theorem gainCurrent_eq (P : Param (CM s)) (M : Measured s) (k : Nat) (b : Fin 2 × Fin 2) (g : CM s) (side : Fin 2) :
    gainCurrent P M k b g side = g + wt P k side b.1 b.2 (curVar M side k) := by
  unfold gainCurrent curVar
  cases M.branchCurrent side k with
  | none => simp [wt]
  | some m => rfl

theorem gainElem_eq (P : Param (CM s)) (M : Measured s) (g : CM s) (e : Elem) :
    gainElem P M g e = g + contribution (gainParam P M) e := by
  obtain ⟨ty, k⟩ := e
  have hb : ∀ b : Fin 2 × Fin 2,
      ([0, 1] : List (Fin 2)).foldl (fun g side => gainCurrent P M k b (gainPower P M k b g side) side) g = g + branchGain P M b.1 b.2 k := by
    intro b
    simp only [List.foldl_cons, List.foldl_nil, gainPower_eq, gainCurrent_eq, branchGain]
    abel
  cases ty with
  | ff => exact hb (0, 0)
  | ft => exact hb (0, 1)
  | tf => exact hb (1, 0)
  | tt => exact hb (1, 1)
  | shunt =>
    show gainShunt P M k g = g + gainShunt P M k 0
    unfold gainShunt
    cases M.shunt k with
    | none => simp
    | some m => simp
  | fillFt => exact (add_zero g).symm
  | fillTf => exact (add_zero g).symm

theorem gainFold_eq {T : Topo} (hv : T.Valid) {S : YBus.Structure} (hS : build T = some S) (P : Param (CM s)) (M : Measured s) (g : CM s)
    {r c d : Nat} (hd : EntryAt S.rowIndptr S.colIndices r c d) :
    (elementsOf S d).foldl (gainElem P M) g = g + nodal T (gainParam P M) r c := by
  rw [← entry_is_nodal hv hS (gainParam P M) hd]
  unfold entryValue
  rw [foldl_add, zero_add, ← foldl_add]
  congr 1
  funext a e
  exact gainElem_eq P M a e

/-! ## The right-hand side of one branch -/

/-- The contribution of a sensor to the right-hand side. -/
noncomputable def wr (P : Param (CM s)) (k : Nat) (side b : Fin 2) : Option (Cur s) → CV s
  | some i => (branchValue P k side b).conjTranspose.mulVec (weigh i.var i.value)
  | none => 0

/-- The current of the power sensors of a side. -/
noncomputable def powerCur (T : Topo) (M : Measured s) (v : Nat → CV s) (side : Fin 2) (k : Nat) : Option (Cur s) :=
  (M.branchPower side k).map fun m => powerToCurrent m (measuredVoltage T v k side)

/-- The current of the current sensors of a side. -/
noncomputable def curCur (T : Topo) (M : Measured s) (v : Nat → CV s) (side : Fin 2) (k : Nat) : Option (Cur s) :=
  (M.branchCurrent side k).map fun m => currentToCurrent m (measuredVoltage T v k side)

/-- All sensors of a branch. -/
noncomputable def branchRhs (T : Topo) (P : Param (CM s)) (M : Measured s) (v : Nat → CV s) (b : Fin 2) (k : Nat) : CV s :=
  wr P k 0 b (powerCur T M v 0 k) + wr P k 0 b (curCur T M v 0 k) + wr P k 1 b (powerCur T M v 1 k) + wr P k 1 b (curCur T M v 1 k)

/-- The right-hand side as the diagonal of a nodal matrix. -/
noncomputable def rhsParam (T : Topo) (P : Param (CM s)) (M : Measured s) (v : Nat → CV s) (bus : Nat) : Param (CV s) where
  ff := branchRhs T P M v 0
  ft := branchRhs T P M v 0
  tf := branchRhs T P M v 1
  tt := branchRhs T P M v 1
  shunt k := rhsShunt P M v bus k 0

theorem addBranchRhs_eq (P : Param (CM s)) (k : Nat) (b side : Fin 2) (i : Cur s) (eta : CV s) :
    addBranchRhs P k b side i eta = eta + wr P k side b (some i) := by
  show eta + ((branchValue P k side b).conjTranspose * diagonalInverse i.var).mulVec i.value =
    eta + (branchValue P k side b).conjTranspose.mulVec ((diagonalInverse i.var).mulVec i.value)
  rw [mulVec_mulVec]

theorem rhsPower_eq (T : Topo) (P : Param (CM s)) (M : Measured s) (v : Nat → CV s) (k : Nat) (b : Fin 2) (eta : CV s) (side : Fin 2) :
    rhsPower T P M v k b eta side = eta + wr P k side b (powerCur T M v side k) := by
  unfold rhsPower powerCur
  cases M.branchPower side k with
  | none => simp [wr]
  | some m => exact addBranchRhs_eq ..

theorem rhsCurrent_eq (T : Topo) (P : Param (CM s)) (M : Measured s) (v : Nat → CV s) (k : Nat) (b : Fin 2) (eta : CV s) (side : Fin 2) :
    rhsCurrent T P M v k b eta side = eta + wr P k side b (curCur T M v side k) := by
  unfold rhsCurrent curCur
  cases M.branchCurrent side k with
  | none => simp [wr]
  | some m => exact addBranchRhs_eq ..

theorem rhsElem_eq (T : Topo) (P : Param (CM s)) (M : Measured s) (v : Nat → CV s) (bus : Nat) (eta : CV s) (e : Elem) :
    rhsElem T P M v bus eta e = eta + contribution (rhsParam T P M v bus) e := by
  obtain ⟨ty, k⟩ := e
  have hb : ∀ b : Fin 2, ([0, 1] : List (Fin 2)).foldl (fun eta side => rhsCurrent T P M v k b (rhsPower T P M v k b eta side) side) eta =
      eta + branchRhs T P M v b k := by
    intro b
    simp only [List.foldl_cons, List.foldl_nil, rhsPower_eq, rhsCurrent_eq, branchRhs]
    abel
  cases ty with
  | ff => exact hb 0
  | ft => exact hb 0
  | tf => exact hb 1
  | tt => exact hb 1
  | shunt =>
    show rhsShunt P M v bus k eta = eta + rhsShunt P M v bus k 0
    unfold rhsShunt
    cases M.shunt k with
    | none => simp
    | some m => simp [sub_eq_add_neg]
  | fillFt => exact (add_zero eta).symm
  | fillTf => exact (add_zero eta).symm

theorem rhsFold_eq {T : Topo} (hv : T.Valid) {S : YBus.Structure} (hS : build T = some S) (P : Param (CM s)) (M : Measured s) (v : Nat → CV s)
    (eta : CV s) {r d : Nat} (hd : EntryAt S.rowIndptr S.colIndices r r d) :
    (elementsOf S d).foldl (rhsElem T P M v r) eta = eta + nodal T (rhsParam T P M v r) r r := by
  rw [← entry_is_nodal hv hS (rhsParam T P M v r) hd]
  unfold entryValue
  rw [foldl_add, zero_add, ← foldl_add]
  congr 1
  funext a e
  exact rhsElem_eq T P M v r a e

end PGM.StateEst
