import Verif.NewtonSe.Derive
import Verif.Newton.Build

/-!
# What the rows of the equations are

Lemmas for C55: the effect of the loops of `prepare_matrix_and_rhs` on the equations of a row.
-/

namespace PGM.NewtonSe

open PGM.YBus PGM.Lu PGM.PowerFlow PGM.StateEst Matrix
open PGM.NewtonPf (RM Polar phasor modify_self modify_ne)

variable {s : Symm}

/-- The block of an entry. -/
def getB (x : Sys s) (k : Nat) : Block s := x.gain[k]?.getD .zero

/-- What remains of the first half of the equations of a row for the changes `d`, over the entries `K`. -/
noncomputable def defect1 (S : YBus.Structure) (K : Finset Nat) (row : Nat) (d : Nat → QV s) (x : Sys s) : QV s :=
  (x.rhs row).eta - ∑ k ∈ K, (getB x k).g.mulVec (d (colOf S k))

/-- What remains of the second half. -/
noncomputable def defect2 (S : YBus.Structure) (K : Finset Nat) (row : Nat) (d : Nat → QV s) (x : Sys s) : QV s :=
  (x.rhs row).tau - ∑ k ∈ K, (getB x k).q.mulVec (d (colOf S k))

/-- The effect of a step on the entries `k` and `diag` of a row: `a` and `b` are added to what remains. -/
structure Eff (S : YBus.Structure) (K : Finset Nat) (row k diag : Nat) (d : Nat → QV s) (x x' : Sys s) (a b : QV s) : Prop where
  len : x'.gain.length = x.gain.length
  other : ∀ j, j ≠ k → j ≠ diag → getB x' j = getB x j
  rhs : ∀ r, r ≠ row → x'.rhs r = x.rhs r
  qt : ∀ j, (getB x' j).qt = (getB x j).qt
  r : ∀ j, (getB x' j).r = (getB x j).r
  first : defect1 S K row d x' = defect1 S K row d x + a
  second : defect2 S K row d x' = defect2 S K row d x + b

variable {S : YBus.Structure} {K : Finset Nat} {row k diag : Nat} {d : Nat → QV s}

theorem Eff.refl (x : Sys s) : Eff S K row k diag d x x 0 0 :=
  ⟨rfl, fun _ _ _ => rfl, fun _ _ => rfl, fun _ => rfl, fun _ => rfl, (add_zero _).symm, (add_zero _).symm⟩

theorem Eff.trans {x y z : Sys s} {a b a' b' : QV s} (h : Eff S K row k diag d x y a b) (g : Eff S K row k diag d y z a' b') :
    Eff S K row k diag d x z (a + a') (b + b') :=
  ⟨g.len.trans h.len, fun j h1 h2 => (g.other j h1 h2).trans (h.other j h1 h2), fun r hr => (g.rhs r hr).trans (h.rhs r hr),
    fun j => (g.qt j).trans (h.qt j), fun j => (g.r j).trans (h.r j), by rw [g.first, h.first, add_assoc], by rw [g.second, h.second, add_assoc]⟩

theorem Eff.cast {x y : Sys s} {a b a' b' : QV s} (h : Eff S K row k diag d x y a b) (ha : a = a') (hb : b = b') :
    Eff S K row k diag d x y a' b' := by rw [← ha, ← hb]; exact h

theorem getB_modify_self {x : Sys s} {j : Nat} (hj : j < x.gain.length) (f : Block s → Block s) :
    getB { x with gain := x.gain.modify j f } j = f (getB x j) := by
  unfold getB
  simp only
  rw [modify_self rfl, List.getElem?_eq_getElem hj]
  rfl

theorem getB_modify_ne {x : Sys s} {i j : Nat} (h : i ≠ j) (f : Block s → Block s) : getB { x with gain := x.gain.modify i f } j = getB x j := by
  unfold getB
  simp only
  rw [modify_ne h]

theorem getB_modify_keep {x : Sys s} {i : Nat} (hi : i < x.gain.length) {A : Type} (f : Block s → Block s) (g : Block s → A)
    (h : ∀ b, g (f b) = g b) (j : Nat) : g (getB { x with gain := x.gain.modify i f } j) = g (getB x j) := by
  by_cases e : i = j
  · subst e
    rw [getB_modify_self hi, h]
  · rw [getB_modify_ne e]

theorem sum_modify {x : Sys s} {i : Nat} (hi : i < x.gain.length) (hK : i ∈ K) (f : Block s → Block s) (g : Block s → QM s) (m : QM s)
    (h : ∀ b, g (f b) = g b + m) :
    ∑ k ∈ K, (g (getB { x with gain := x.gain.modify i f } k)).mulVec (d (colOf S k)) =
      ∑ k ∈ K, (g (getB x k)).mulVec (d (colOf S k)) + m.mulVec (d (colOf S i)) := by
  rw [← Finset.add_sum_erase K _ hK, ← Finset.add_sum_erase K (fun k => (g (getB x k)).mulVec (d (colOf S k))) hK, getB_modify_self hi, h, add_mulVec]
  have : ∑ k ∈ K.erase i, (g (getB { x with gain := x.gain.modify i f } k)).mulVec (d (colOf S k)) =
      ∑ k ∈ K.erase i, (g (getB x k)).mulVec (d (colOf S k)) :=
    Finset.sum_congr rfl fun j hj => by rw [getB_modify_ne (Ne.symm (Finset.ne_of_mem_erase hj))]
  rw [this]
  abel

theorem eff_addG {x : Sys s} {i : Nat} (hi : i < x.gain.length) (hK : i ∈ K) (hik : i = k ∨ i = diag) (m : QM s) :
    Eff S K row k diag d x (addG i m x) (-(m.mulVec (d (colOf S i)))) 0 := by
  refine ⟨by simp [addG], fun j h1 h2 => getB_modify_ne (by omega) _, fun _ _ => rfl, getB_modify_keep hi _ Block.qt fun _ => rfl,
    getB_modify_keep hi _ Block.r fun _ => rfl, ?_, ?_⟩
  · unfold defect1 addG
    simp only
    rw [sum_modify hi hK (fun b => { b with g := b.g + m }) Block.g m fun _ => rfl]
    abel
  · unfold defect2 addG
    simp only [add_zero]
    congr 1
    exact Finset.sum_congr rfl fun j _ => by rw [getB_modify_keep hi (fun b => { b with g := b.g + m }) Block.q fun _ => rfl]

theorem eff_addQ {x : Sys s} {i : Nat} (hi : i < x.gain.length) (hK : i ∈ K) (hik : i = k ∨ i = diag) (m : QM s) :
    Eff S K row k diag d x (addQ i m x) 0 (-(m.mulVec (d (colOf S i)))) := by
  refine ⟨by simp [addQ], fun j h1 h2 => getB_modify_ne (by omega) _, fun _ _ => rfl, getB_modify_keep hi _ Block.qt fun _ => rfl,
    getB_modify_keep hi _ Block.r fun _ => rfl, ?_, ?_⟩
  · unfold defect1 addQ
    simp only [add_zero]
    congr 1
    exact Finset.sum_congr rfl fun j _ => by rw [getB_modify_keep hi (fun b => { b with q := b.q + m }) Block.g fun _ => rfl]
  · unfold defect2 addQ
    simp only
    rw [sum_modify hi hK (fun b => { b with q := b.q + m }) Block.q m fun _ => rfl]
    abel

theorem eff_addEta (x : Sys s) (v : QV s) : Eff S K row k diag d x (addEta row v x) v 0 := by
  refine ⟨rfl, fun _ _ _ => rfl, fun r hr => by simp [addEta, Function.update_of_ne hr], fun _ => rfl, fun _ => rfl, ?_, ?_⟩
  · unfold defect1 addEta getB
    simp only [Function.update_self]
    abel
  · unfold defect2 addEta getB
    simp only [Function.update_self]
    abel

theorem eff_addTau (x : Sys s) (v : QV s) : Eff S K row k diag d x (addTau row v x) 0 v := by
  refine ⟨rfl, fun _ _ _ => rfl, fun r hr => by simp [addTau, Function.update_of_ne hr], fun _ => rfl, fun _ => rfl, ?_, ?_⟩
  · unfold defect1 addTau getB
    simp only [Function.update_self]
    abel
  · unfold defect2 addTau getB
    simp only [Function.update_self]
    abel

/-! ## Sensors -/

/-- What a flow sensor adds to the row of one of the buses. -/
noncomputable def flowTerm (left right : QM s) (m : PowerM s) (f : CV s) (dr dc : QV s) : QV s :=
  (timesWeight left m).mulVec (parts (m.value - f) - (left.mulVec dr + right.mulVec dc))

theorem eff_addFlow {x : Sys s} (hk : k < x.gain.length) (hd : diag < x.gain.length) (hK : k ∈ K) (hD : diag ∈ K) (hcol : colOf S diag = row)
    (left right : QM s) (m : PowerM s) (f : CV s) :
    Eff S K row k diag d x (addFlow k diag row left right m f x) (flowTerm left right m f (d row) (d (colOf S k))) 0 := by
  have h1 : Eff S K row k diag d x _ _ _ := eff_addG hd hD (Or.inr rfl) (timesWeight left m * left)
  have h2 : Eff S K row k diag d (addG diag (timesWeight left m * left) x) _ _ _ :=
    eff_addG (by rw [h1.len]; exact hk) hK (Or.inl rfl) (timesWeight left m * right)
  refine ((h1.trans h2).trans (eff_addEta _ _)).cast ?_ (by simp)
  unfold flowTerm
  rw [hcol, mulVec_sub, mulVec_add, mulVec_mulVec, mulVec_mulVec]
  abel

/-- The same for the order of the buses in the row. -/
noncomputable def orderedTerm (major : Bool) (F : Flow s) (m : PowerM s) (dr dc : QV s) : QV s :=
  if major then flowTerm F.own F.other m F.f dr dc else flowTerm F.other F.own m F.f dr dc

theorem eff_addOrdered {x : Sys s} (hk : k < x.gain.length) (hd : diag < x.gain.length) (hK : k ∈ K) (hD : diag ∈ K) (hcol : colOf S diag = row)
    (major : Bool) (F : Flow s) (m : PowerM s) :
    Eff S K row k diag d x (addOrdered k diag row major F m x) (orderedTerm major F m (d row) (d (colOf S k))) 0 := by
  unfold addOrdered orderedTerm
  cases major with
  | true => exact eff_addFlow hk hd hK hD hcol _ _ _ _
  | false => exact eff_addFlow hk hd hK hD hcol _ _ _ _

/-- What a power sensor adds. -/
noncomputable def powerTerm (P : Param (CM s)) (M : Measured s) (x : Nat → Polar s) (d : Nat → QV s) (row col : Nat) (ft : Bool) (b : Nat)
    (side : Fin 2) : QV s :=
  match M.branchPower side b with
  | some m => orderedTerm (rowMajor ft side) (powerFlow (branchValue P b side side) (branchValue P b side (otherSide side))
      (ends x row col (rowMajor ft side)).1 (ends x row col (rowMajor ft side)).2) m (d row) (d col)
  | none => 0

/-- What a current sensor adds. -/
noncomputable def currentTerm (P : Param (CM s)) (M : Measured s) (x : Nat → Polar s) (d : Nat → QV s) (row col : Nat) (ft : Bool) (b : Nat)
    (side : Fin 2) : QV s :=
  match M.branchCurrent side b with
  | some m => orderedTerm (rowMajor ft side) (currentFlow m.globalAngle (branchValue P b side side) (branchValue P b side (otherSide side))
      (ends x row col (rowMajor ft side)).1 (ends x row col (rowMajor ft side)).2) (currMeasure m) (d row) (d col)
  | none => 0

/-- What a branch adds. -/
noncomputable def branchTerm' (P : Param (CM s)) (M : Measured s) (x : Nat → Polar s) (d : Nat → QV s) (row col : Nat) (ft : Bool) (b : Nat) : QV s :=
  powerTerm P M x d row col ft b 0 + powerTerm P M x d row col ft b 1 + currentTerm P M x d row col ft b 0 + currentTerm P M x d row col ft b 1

/-- What a shunt adds. -/
noncomputable def shuntTerm (P : Param (CM s)) (M : Measured s) (x : Nat → Polar s) (d : Nat → QV s) (row col b : Nat) : QV s :=
  match M.shunt b with
  | some m => (timesWeight (shuntFlow (P.shunt b) (x row)).1 m).mulVec
      (parts (m.value - (shuntFlow (P.shunt b) (x row)).2) - (shuntFlow (P.shunt b) (x row)).1.mulVec (d col))
  | none => 0

/-- What an element adds. -/
noncomputable def elemTerm (P : Param (CM s)) (M : Measured s) (x : Nat → Polar s) (d : Nat → QV s) (row col : Nat) (e : Elem) : QV s :=
  match e.type with
  | .shunt => shuntTerm P M x d row col e.idx
  | .ft => branchTerm' P M x d row col true e.idx
  | .tf => branchTerm' P M x d row col false e.idx
  | _ => 0

theorem eff_powerSide (P : Param (CM s)) (M : Measured s) (pol : Nat → Polar s) {x : Sys s} (hk : k < x.gain.length) (hd : diag < x.gain.length)
    (hK : k ∈ K) (hD : diag ∈ K) (hcol : colOf S diag = row) (ft : Bool) (b : Nat) (side : Fin 2) :
    Eff S K row k diag d x (powerSide P M pol row (colOf S k) k diag ft b x side) (powerTerm P M pol d row (colOf S k) ft b side) 0 := by
  unfold powerSide powerTerm
  cases M.branchPower side b with
  | none => exact Eff.refl x
  | some m => exact eff_addOrdered hk hd hK hD hcol _ _ _

theorem eff_currentSide (P : Param (CM s)) (M : Measured s) (pol : Nat → Polar s) {x : Sys s} (hk : k < x.gain.length) (hd : diag < x.gain.length)
    (hK : k ∈ K) (hD : diag ∈ K) (hcol : colOf S diag = row) (ft : Bool) (b : Nat) (side : Fin 2) :
    Eff S K row k diag d x (currentSide P M pol row (colOf S k) k diag ft b x side) (currentTerm P M pol d row (colOf S k) ft b side) 0 := by
  unfold currentSide currentTerm
  cases M.branchCurrent side b with
  | none => exact Eff.refl x
  | some m => exact eff_addOrdered hk hd hK hD hcol _ _ _

theorem eff_branchElem (P : Param (CM s)) (M : Measured s) (pol : Nat → Polar s) {x : Sys s} (hk : k < x.gain.length) (hd : diag < x.gain.length)
    (hK : k ∈ K) (hD : diag ∈ K) (hcol : colOf S diag = row) (ft : Bool) (b : Nat) :
    Eff S K row k diag d x (branchElem P M pol row (colOf S k) k diag ft b x) (branchTerm' P M pol d row (colOf S k) ft b) 0 := by
  unfold branchElem branchTerm'
  simp only [List.foldl_cons, List.foldl_nil]
  have h1 : Eff S K row k diag d x _ _ _ := eff_powerSide P M pol hk hd hK hD hcol ft b 0
  have h2 : Eff S K row k diag d _ _ _ _ := eff_powerSide P M pol (by rw [h1.len]; exact hk) (by rw [h1.len]; exact hd) hK hD hcol ft b 1
  have h12 := h1.trans h2
  have h3 : Eff S K row k diag d _ _ _ _ := eff_currentSide P M pol (by rw [h12.len]; exact hk) (by rw [h12.len]; exact hd) hK hD hcol ft b 0
  have h123 := h12.trans h3
  have h4 : Eff S K row k diag d _ _ _ _ := eff_currentSide P M pol (by rw [h123.len]; exact hk) (by rw [h123.len]; exact hd) hK hD hcol ft b 1
  exact (h123.trans h4).cast rfl (by simp)

theorem eff_elem (P : Param (CM s)) (M : Measured s) (pol : Nat → Polar s) {x : Sys s} (hk : k < x.gain.length) (hd : diag < x.gain.length)
    (hK : k ∈ K) (hD : diag ∈ K) (hcol : colOf S diag = row) (e : Elem) :
    Eff S K row k diag d x (elemStep P M pol row (colOf S k) k diag x e) (elemTerm P M pol d row (colOf S k) e) 0 := by
  unfold elemStep elemTerm
  cases h : e.type with
  | shunt =>
    unfold shuntElem shuntTerm
    cases M.shunt e.idx with
    | none => exact Eff.refl x
    | some m =>
      have h1 : Eff S K row k diag d x _ _ _ :=
        eff_addG hk hK (Or.inl rfl) (timesWeight (shuntFlow (P.shunt e.idx) (pol row)).1 m * (shuntFlow (P.shunt e.idx) (pol row)).1)
      refine (h1.trans (eff_addEta _ _)).cast ?_ (by simp)
      dsimp only
      rw [mulVec_sub, mulVec_mulVec]
      abel
  | ft => exact eff_branchElem P M pol hk hd hK hD hcol true e.idx
  | tf => exact eff_branchElem P M pol hk hd hK hD hcol false e.idx
  | _ => exact Eff.refl x

theorem eff_elems (P : Param (CM s)) (M : Measured s) (pol : Nat → Polar s) (l : List Elem) {x : Sys s} (hk : k < x.gain.length)
    (hd : diag < x.gain.length) (hK : k ∈ K) (hD : diag ∈ K) (hcol : colOf S diag = row) :
    Eff S K row k diag d x (l.foldl (elemStep P M pol row (colOf S k) k diag) x) (l.map (elemTerm P M pol d row (colOf S k))).sum 0 := by
  induction l generalizing x with
  | nil => exact Eff.refl x
  | cons e l ih =>
    rw [List.foldl_cons, List.map_cons, List.sum_cons]
    have h1 : Eff S K row k diag d x _ _ _ := eff_elem P M pol hk hd hK hD hcol e
    exact (h1.trans (ih (by rw [h1.len]; exact hk) (by rw [h1.len]; exact hd))).cast rfl (by simp)

/-- What a voltage sensor adds. -/
noncomputable def voltageTerm (N : SeNet s) (M : Measured s) (x : Nat → Polar s) (d : Nat → QV s) (bus : Nat) : QV s :=
  match M.voltage bus with
  | none => 0
  | some m =>
    Sum.elim ((angleWeight m.var (angleTarget N M bus m.value)).mulVec (angleError (x bus) (angleTarget N M bus m.value) - fun p => d bus (.inl p)))
      ((diagonal fun _ => 1 / m.var : RM s).mulVec (magnitudeOf m.value - (x bus).v - fun p => d bus (.inr p)))

theorem eff_voltage {N : SeNet s} (M : Measured s) (pol : Nat → Polar s) {x : Sys s} (hd : diag < x.gain.length) (hD : diag ∈ K)
    (hcol : colOf S diag = row) : Eff S K row k diag d x (voltageStep N M pol row diag x) (voltageTerm N M pol d row) 0 := by
  unfold voltageStep voltageTerm
  cases M.voltage row with
  | none => exact Eff.refl x
  | some m =>
    have h1 : Eff S K row k diag d x _ _ _ := eff_addG hd hD (Or.inr rfl)
      (fromBlocks (angleWeight m.var (angleTarget N M row m.value)) 0 0 (diagonal fun _ => 1 / m.var))
    refine (h1.trans (eff_addEta _ _)).cast ?_ (by simp)
    rw [hcol, fromBlocks_mulVec]
    simp only [mulVec_sub, zero_mulVec, add_zero, zero_add]
    funext i
    rcases i with p | p
    · simp only [Pi.add_apply, Pi.neg_apply, Sum.elim_inl, Pi.sub_apply]
      rw [show (d row ∘ Sum.inl) = fun p => d row (.inl p) from rfl]
      ring
    · simp only [Pi.add_apply, Pi.neg_apply, Sum.elim_inr, Pi.sub_apply]
      rw [show (d row ∘ Sum.inr) = fun p => d row (.inr p) from rfl]
      ring

/-- What an entry of the row of an injection adds. -/
noncomputable def injectionRowTerm (y : CM s) (x : Nat → Polar s) (d : Nat → QV s) (row col : Nat) : QV s :=
  -parts (sumRow (hmForm y (phasor (x row)) (phasor (x col)))) -
    (jacobian (hmForm y (phasor (x row)) (phasor (x col))) (scaleCols (hmForm y (phasor (x row)) (phasor (x col))) (x col).v)).mulVec (d col) -
    (diagonalPart (fun p => ((1 / (x row).v p : ℝ) : ℂ) * sumRow (hmForm y (phasor (x row)) (phasor (x col))) p)
      (sumRow (hmForm y (phasor (x row)) (phasor (x col))))).mulVec (d row)

theorem eff_injectionRow (y : CM s) (pol : Nat → Polar s) {x : Sys s} (hk : k < x.gain.length) (hd : diag < x.gain.length)
    (hK : k ∈ K) (hD : diag ∈ K) (hcol : colOf S diag = row) :
    Eff S K row k diag d x (injectionRow y pol row (colOf S k) k diag x) 0 (injectionRowTerm y pol d row (colOf S k)) := by
  unfold injectionRow injectionRowTerm
  have h1 : Eff S K row k diag d x _ _ _ := eff_addQ hk hK (Or.inl rfl)
    (jacobian (hmForm y (phasor (pol row)) (phasor (pol (colOf S k))))
      (scaleCols (hmForm y (phasor (pol row)) (phasor (pol (colOf S k)))) (pol (colOf S k)).v))
  have h2 : Eff S K row k diag d _ _ _ _ := eff_addQ (by rw [h1.len]; exact hd) hD (Or.inr rfl)
    (diagonalPart (fun p => ((1 / (pol row).v p : ℝ) : ℂ) * sumRow (hmForm y (phasor (pol row)) (phasor (pol (colOf S k)))) p)
      (sumRow (hmForm y (phasor (pol row)) (phasor (pol (colOf S k))))))
  refine ((h1.trans h2).trans (eff_addTau _ _)).cast (by simp) ?_
  rw [hcol]
  abel

end PGM.NewtonSe
