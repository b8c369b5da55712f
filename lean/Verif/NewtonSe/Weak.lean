import Verif.NewtonSe.Prepare
import Verif.StateEst.Props

/-!
# The equations of an iteration, tested against arbitrary changes

Lemmas for C55.
-/

namespace PGM.NewtonSe

open PGM.YBus PGM.Lu PGM.PowerFlow PGM.StateEst Matrix
open PGM.NewtonPf (RM Polar phasor)

variable {s : Symm}

/-- A direction as halves of unknowns. -/
def vecs (d : Nat → Polar s) (b : Nat) : QV s := vec (d b)

/-! ## Branches -/

theorem dot_weighted {j : QM s} (hj : Split j) (m : PowerM s) (v z : QV s) :
    v ⬝ᵥ (timesWeight j m).mulVec z = j.mulVec v ⬝ᵥ (diagonal (weights m.vp m.vq)).mulVec z := by
  rw [timesWeight_split hj, ← mulVec_mulVec, dotProduct_mulVec, vecMul_transpose]

theorem flow_pair {F : Flow s} (ho : Split F.own) (ht : Split F.other) (m : PowerM s) (ea eb da db : QV s) :
    ea ⬝ᵥ flowTerm F.own F.other m F.f da db + eb ⬝ᵥ flowTerm F.other F.own m F.f db da =
      (F.own.mulVec ea + F.other.mulVec eb) ⬝ᵥ
        (diagonal (weights m.vp m.vq)).mulVec (parts (m.value - F.f) - (F.own.mulVec da + F.other.mulVec db)) := by
  unfold flowTerm
  rw [dot_weighted ho, dot_weighted ht, add_dotProduct, add_comm (F.other.mulVec db)]

theorem flow_readings {F : Flow s} (ho : Split F.own) (ht : Split F.other) (m : PowerM s) {f : (Nat → Polar s) → CV s} {x : Nat → Polar s}
    {a b : Nat} (hl : Linearises f x fun d => F.own.mulVec (vec (d a)) + F.other.mulVec (vec (d b))) (hf : F.f = f x) (d e : Nat → Polar s) :
    vecs e a ⬝ᵥ flowTerm F.own F.other m F.f (vecs d a) (vecs d b) + vecs e b ⬝ᵥ flowTerm F.other F.own m F.f (vecs d b) (vecs d a) =
      ((complexReadings f m.value m.vp m.vq).map (Reading.pair x d e)).sum := by
  rw [flow_pair ho ht, pair_complex hl, hf]
  rfl

/-- The admittance that connects a side with the other. -/
theorem power_sensor {P : Param (CM s)} {M : Measured s} (hu : MeasuredUncoupled P M) {x : Nat → Polar s} {f t : Nat}
    (hf : ∀ p, (x f).v p ≠ 0) (ht : ∀ p, (x t).v p ≠ 0) (d e : Nat → Polar s) (k : Nat) (side : Fin 2) :
    vecs e f ⬝ᵥ powerTerm P M x (vecs d) f t true k side + vecs e t ⬝ᵥ powerTerm P M x (vecs d) t f false k side =
      ((powerReadings P M ((some f, some t), k) side).map (Reading.pair x d e)).sum := by
  unfold powerTerm powerReadings
  cases hm : M.branchPower side k with
  | none => simp
  | some m =>
    have hu0 := hu.branch side k (Or.inl (by rw [hm]; simp))
    dsimp only
    match side, hm, hu0 with
    | 0, hm, hu0 =>
      obtain ⟨s1, s2⟩ := power_split (hu0 0) (hu0 1) (x f) (x t)
      exact flow_readings s1 s2 m (power_linearises _ _ x f t hf ht) (funext fun p => power_value _ _ _ _ p) d e
    | 1, hm, hu0 =>
      obtain ⟨s1, s2⟩ := power_split (hu0 1) (hu0 0) (x t) (x f)
      rw [add_comm]
      have h := power_linearises (branchValue P k 1 1) (branchValue P k 1 0) x t f ht hf
      have e1 : (fun (x : Nat → Polar s) p => phasors x t p *
          star (((branchValue P k 1 1).mulVec (phasors x t) + (branchValue P k 1 0).mulVec (phasors x f)) p)) =
          fun x => flowPower x (endAt ((some f, some t), k) 1) (currentInto P ((some f, some t), k) 1 (phasors x)) := by
        funext x p
        rw [add_comm]
        rfl
      rw [e1] at h
      refine flow_readings s1 s2 m h ?_ d e
      exact (funext fun p => power_value _ _ _ _ p).trans (congrFun e1 x)

theorem current_split (glob : Bool) {yo yt : CM s} (ho : Uncoupled yo) (ht : Uncoupled yt) (a b : Polar s) :
    Split (currentFlow glob yo yt a b).own ∧ Split (currentFlow glob yo yt a b).other := by
  cases glob with
  | true => exact global_split ho ht a b
  | false => exact local_split ho ht a b

theorem current_linearises (glob : Bool) {yo yt : CM s} (ho : Uncoupled yo) (ht : Uncoupled yt) (x : Nat → Polar s) (a b : Nat)
    (ha : ∀ p, (x a).v p ≠ 0) (hb : ∀ p, (x b).v p ≠ 0) :
    Linearises (fun x => shownCurrent glob x (some a) (yo.mulVec (phasors x a) + yt.mulVec (phasors x b))) x (fun d =>
      (currentFlow glob yo yt (x a) (x b)).own.mulVec (vec (d a)) + (currentFlow glob yo yt (x a) (x b)).other.mulVec (vec (d b))) ∧
    (currentFlow glob yo yt (x a) (x b)).f = shownCurrent glob x (some a) (yo.mulVec (phasors x a) + yt.mulVec (phasors x b)) := by
  cases glob with
  | true => exact ⟨global_linearises yo yt x a b ha hb, global_value yo yt (x a) (x b)⟩
  | false => exact ⟨local_linearises ho ht x a b ha hb, funext fun p => local_value ho ht (x a) (x b) ha p⟩

theorem current_sensor {P : Param (CM s)} {M : Measured s} (hu : MeasuredUncoupled P M) {x : Nat → Polar s} {f t : Nat}
    (hf : ∀ p, (x f).v p ≠ 0) (ht : ∀ p, (x t).v p ≠ 0) (d e : Nat → Polar s) (k : Nat) (side : Fin 2) :
    vecs e f ⬝ᵥ currentTerm P M x (vecs d) f t true k side + vecs e t ⬝ᵥ currentTerm P M x (vecs d) t f false k side =
      ((currentReadings P M ((some f, some t), k) side).map (Reading.pair x d e)).sum := by
  unfold currentTerm currentReadings
  cases hm : M.branchCurrent side k with
  | none => simp
  | some m =>
    have hu0 := hu.branch side k (Or.inr (by rw [hm]; simp))
    dsimp only
    match side, hm, hu0 with
    | 0, hm, hu0 =>
      obtain ⟨s1, s2⟩ := current_split m.globalAngle (hu0 0) (hu0 1) (x f) (x t)
      obtain ⟨l1, l2⟩ := current_linearises m.globalAngle (hu0 0) (hu0 1) x f t hf ht
      exact flow_readings s1 s2 (currMeasure m) l1 l2 d e
    | 1, hm, hu0 =>
      obtain ⟨s1, s2⟩ := current_split m.globalAngle (hu0 1) (hu0 0) (x t) (x f)
      obtain ⟨l1, l2⟩ := current_linearises m.globalAngle (hu0 1) (hu0 0) x t f ht hf
      rw [add_comm]
      have e1 : (fun (x : Nat → Polar s) => shownCurrent m.globalAngle x (some t)
          ((branchValue P k 1 1).mulVec (phasors x t) + (branchValue P k 1 0).mulVec (phasors x f))) =
          fun x => shownCurrent m.globalAngle x (endAt ((some f, some t), k) 1) (currentInto P ((some f, some t), k) 1 (phasors x)) := by
        funext x
        rw [add_comm]
        rfl
      rw [e1] at l1
      refine flow_readings s1 s2 (currMeasure m) l1 ?_ d e
      exact l2.trans (congrFun e1 x)

theorem branch_tested {P : Param (CM s)} {M : Measured s} (hu : MeasuredUncoupled P M) {x : Nat → Polar s} {f t : Nat}
    (hf : ∀ p, (x f).v p ≠ 0) (ht : ∀ p, (x t).v p ≠ 0) (d e : Nat → Polar s) (k : Nat) :
    vecs e f ⬝ᵥ branchTerm' P M x (vecs d) f t true k + vecs e t ⬝ᵥ branchTerm' P M x (vecs d) t f false k =
      ((branchReadings P M ((some f, some t), k)).map (Reading.pair x d e)).sum := by
  unfold branchReadings branchTerm'
  simp only [List.map_append, List.sum_append, dotProduct_add]
  rw [← power_sensor hu hf ht, ← power_sensor hu hf ht, ← current_sensor hu hf ht, ← current_sensor hu hf ht]
  ring

/-! ## Shunts and voltages -/

theorem shunt_tested {P : Param (CM s)} {M : Measured s} (hu : MeasuredUncoupled P M) {x : Nat → Polar s} {b : Nat} (hb : ∀ p, (x b).v p ≠ 0)
    (d e : Nat → Polar s) (k : Nat) :
    vecs e b ⬝ᵥ shuntTerm P M x (vecs d) b b k = ((shuntReadings P M (b, k)).map (Reading.pair x d e)).sum := by
  unfold shuntTerm shuntReadings
  cases hm : M.shunt k with
  | none => simp
  | some m =>
    have hu0 := hu.shunt k m hm
    dsimp only
    have h := shunt_linearises hu0 x b hb
    rw [dot_weighted (shunt_split hu0 (x b))]
    refine Eq.trans ?_ (pair_complex h d e m.value m.vp m.vq).symm
    have : (shuntFlow (P.shunt k) (x b)).2 = fun p => phasors x b p * star ((-(P.shunt k).mulVec (phasors x b)) p) :=
      funext fun p => shunt_value _ _ p
    rw [this]
    rfl

theorem slope_theta (b : Nat) (p : Fin s.phases) (a v : ℝ) (x d : Nat → Polar s) :
    Reading.slope ⟨fun x => (x b).theta p, a, v⟩ x d = (d b).theta p := by
  unfold Reading.slope move
  simp only
  have := ((hasDerivAt_id (0 : ℝ)).mul_const ((d b).theta p)).const_add ((x b).theta p)
  simpa using this.deriv

theorem slope_v (b : Nat) (p : Fin s.phases) (a v : ℝ) (x d : Nat → Polar s) :
    Reading.slope ⟨fun x => (x b).v p, a, v⟩ x d = (d b).v p := by
  unfold Reading.slope move
  simp only
  have := ((hasDerivAt_id (0 : ℝ)).mul_const ((d b).v p)).const_add ((x b).v p)
  simpa using this.deriv

theorem reference_eq {N : SeNet s} (M : Measured s) {b : Nat} (hb : b < N.T.nBus) (hv : M.voltage b ≠ none) :
    virtualBus N M = referenceBus N.T.nBus N.slack M := by
  unfold virtualBus referenceBus
  by_cases h : M.voltage N.slack = none
  · rw [h, if_neg (by simp), if_neg (by simp)]
    have hne : {b | b < N.T.nBus ∧ M.voltage b ≠ none}.Nonempty := ⟨b, hb, hv⟩
    obtain ⟨h1, h2⟩ := Nat.sInf_mem hne
    have : (List.range N.T.nBus).find? (fun b => (M.voltage b).isSome) = some (sInf {b | b < N.T.nBus ∧ M.voltage b ≠ none}) := by
      rw [List.find?_range_eq_some]
      refine ⟨Option.isSome_iff_ne_none.mpr h2, List.mem_range.mpr h1, fun j hj => ?_⟩
      by_contra hc
      have hs : (M.voltage j).isSome = true := by
        rw [Option.isSome_iff_ne_none]
        simpa using hc
      have := Nat.sInf_le (show j ∈ {b | b < N.T.nBus ∧ M.voltage b ≠ none} from ⟨by omega, Option.isSome_iff_ne_none.mp hs⟩)
      omega
    rw [this]
    rfl
  · rw [if_pos (Option.isSome_iff_ne_none.mpr h), if_pos h]

theorem angle_eq {N : SeNet s} (M : Measured s) {b : Nat} (hb : b < N.T.nBus) (hv : M.voltage b ≠ none) (m : VoltValue s) :
    angleTarget N M b m = measuredAngle N.T.nBus N.slack M b m := by
  cases m with
  | phasor u => rfl
  | magnitude u =>
    unfold angleTarget measuredAngle
    rw [reference_eq M hb hv]
    by_cases h : HasAngle N.T.nBus M
    · rw [if_neg (fun h' => by rw [(hasAngle_iff _ _).mpr h] at h'; simp at h'), if_neg (fun h' => h'.1 h)]
    · have : hasAngle N.T.nBus M = false := by
        rw [← Bool.not_eq_true]
        exact fun h' => h ((hasAngle_iff _ _).mp h')
      by_cases e : b = referenceBus N.T.nBus N.slack M
      · rw [if_pos ⟨e, this⟩, if_pos ⟨h, e⟩]
      · rw [if_neg (fun h' => e h'.1), if_neg (fun h' => e h'.2)]

theorem sum_finRange {n : Nat} (f : Fin n → Reading s) (g : Reading s → ℝ) : (((List.finRange n).map f).map g).sum = ∑ p, g (f p) := by
  rw [Fin.sum_univ_def, List.map_map]
  rfl

theorem voltage_tested {N : SeNet s} (M : Measured s) {b : Nat} (hb : b < N.T.nBus) (x d e : Nat → Polar s) :
    vecs e b ⬝ᵥ voltageTerm N M x (vecs d) b = ((voltageReadings N.T.nBus N.slack M b).map (Reading.pair x d e)).sum := by
  unfold voltageTerm voltageReadings
  cases hm : M.voltage b with
  | none => simp
  | some m =>
    dsimp only
    rw [angle_eq M hb (by rw [hm]; simp)]
    rw [List.map_append, List.sum_append, sum_finRange]
    have hv : ∀ v : QV s, vecs e b ⬝ᵥ v = ∑ p, (e b).theta p * v (.inl p) + ∑ p, (e b).v p * v (.inr p) := by
      intro v
      unfold dotProduct
      rw [Fintype.sum_sum_type]
      rfl
    rw [hv, add_comm]
    congr 1
    · refine Finset.sum_congr rfl fun p _ => ?_
      unfold Reading.pair Reading.misfit
      simp only [slope_v, Sum.elim_inr, mulVec_diagonal, Pi.sub_apply]
      have : magnitudeOf m.value = measuredMagnitude m.value := by cases m.value <;> rfl
      rw [this]
      simp only [vecs, vec, Sum.elim_inr]
      ring
    · cases measuredAngle N.T.nBus N.slack M b m.value with
      | none => simp [angleWeight]
      | some a =>
        dsimp only
        rw [sum_finRange]
        refine Finset.sum_congr rfl fun p _ => ?_
        unfold Reading.pair Reading.misfit
        simp only [slope_theta, Sum.elim_inl, angleWeight, angleError, mulVec_diagonal, Pi.sub_apply, vecs, vec]
        ring

/-! ## Rows -/

theorem col_lt {N : SeNet s} (hN : N.Valid) {r c k : Nat} (h : EntryAt N.S.rowIndptrLu N.S.colIndicesLu r c k) : c < N.T.nBus := by
  obtain ⟨k', _, _, _, _, h, _⟩ := (net_structure hN).transpose.2 _ _ _ h
  have := (List.getElem?_eq_some_iff.mp h).1
  rw [(net_structure hN).lu.len] at this
  omega

theorem row_sum {N : SeNet s} (hN : N.Valid) {V : Type} [AddCommMonoid V] {r : Nat} (hr : r < N.T.nBus) (G F : Nat → V)
    (hG : ∀ k, k ∈ rowEntries N.S r → G k = F (colOf N.S k)) (hF : ∀ c, ¬ InLu N.T r c → F c = 0) :
    ((rowEntries N.S r).map G).sum = ∑ c ∈ Finset.range N.T.nBus, F c := by
  rw [← List.sum_toFinset G (entries_nodup N.S r)]
  refine Finset.sum_of_injOn (colOf N.S) ?_ ?_ ?_ ?_
  · intro j hj k hk h
    exact col_unique hN hr (List.mem_toFinset.mp hj) (List.mem_toFinset.mp hk) h
  · intro k hk
    exact Finset.mem_coe.mpr (Finset.mem_range.mpr (col_lt hN ((mem_entries hN hr).mp (List.mem_toFinset.mp hk))))
  · intro c _ hc
    refine hF c fun hl => hc ?_
    obtain ⟨k, hk⟩ := ((net_structure hN).lu.pattern r hr c).mpr hl
    refine ⟨k, ?_, colOf_entry hk⟩
    rw [Finset.mem_coe, List.mem_toFinset, mem_entries hN hr, colOf_entry hk]
    exact hk
  · intro k hk
    exact hG k (List.mem_toFinset.mp hk)

/-- The terms of the branches and shunts as the parameters of a nodal matrix. -/
noncomputable def termParam (P : Param (CM s)) (M : Measured s) (x : Nat → Polar s) (d : Nat → QV s) (r c : Nat) : Param (QV s) where
  ff _ := 0
  ft k := branchTerm' P M x d r c true k
  tf k := branchTerm' P M x d r c false k
  tt _ := 0
  shunt k := shuntTerm P M x d r c k

theorem elems_nodal {N : SeNet s} (hN : N.Valid) (M : Measured s) (x : Nat → Polar s) (d : Nat → QV s) {r k : Nat} (hr : r < N.T.nBus)
    (hk : k ∈ rowEntries N.S r) :
    elemsTerm N M x d r k = nodal N.T (termParam N.y.param M x d r (colOf N.S k)) r (colOf N.S k) := by
  have he := (mem_entries hN hr).mp hk
  unfold elemsTerm
  by_cases hY : InY N.T r (colOf N.S k)
  · obtain ⟨dd, h1, h2⟩ := ((net_structure hN).map.2 _ _ _ he).1 hY
    rw [h1, ← entry_is_nodal hN.topo hN.structure_ _ h2]
    unfold entryValue
    rw [Option.getD_some]
    have hfold : ∀ (l : List Elem) (acc : QV s), l.foldl (fun acc e => acc + contribution (termParam N.y.param M x d r (colOf N.S k)) e) acc =
        acc + (l.map (elemTerm N.y.param M x d r (colOf N.S k))).sum := by
      intro l
      induction l with
      | nil => simp
      | cons e l ih =>
        intro acc
        rw [List.foldl_cons, ih, List.map_cons, List.sum_cons, ← add_assoc]
        congr 2
        unfold contribution elemTerm termParam
        cases e.type <;> rfl
    rw [hfold, zero_add]
  · rw [((net_structure hN).map.2 _ _ _ he).2 hY, nodal_zero _ hY]
    rfl

theorem dot_ite (v : QV s) (p : Prop) [Decidable p] (a : QV s) : v ⬝ᵥ (if p then a else 0) = if p then v ⬝ᵥ a else 0 := by
  split_ifs
  · rfl
  · exact dotProduct_zero v

theorem dot_list {A : Type} (v : QV s) (l : List A) (f : A → QV s) : v ⬝ᵥ (l.map f).sum = (l.map fun a => v ⬝ᵥ f a).sum := by
  induction l with
  | nil => exact dotProduct_zero v
  | cons a l ih => rw [List.map_cons, List.sum_cons, dotProduct_add, ih, List.map_cons, List.sum_cons]

theorem pick_two (n : Nat) (o o' : Option Nat) (ho : ∀ r, o = some r → r < n) (ho' : ∀ r, o' = some r → r < n) (f : Nat → Nat → ℝ) :
    ∑ r ∈ Finset.range n, ∑ c ∈ Finset.range n, (if o = some r ∧ o' = some c then f r c else 0) = o.elim 0 fun r => o'.elim 0 fun c => f r c := by
  rw [← sum_pick n o ho]
  refine Finset.sum_congr rfl fun r _ => ?_
  split_ifs with h
  · rw [← sum_pick n o' ho']
    exact Finset.sum_congr rfl fun c _ => by simp only [h, true_and]
  · exact Finset.sum_eq_zero fun c _ => if_neg fun h' => h h'.1

/-- **The first half of the equations, tested.** -/
theorem first_tested {N : SeNet s} (hN : N.Valid) {M : Measured s} (hu : MeasuredUncoupled N.y.param M) (hc : MeasuredClosed N.T M)
    {x : Nat → Polar s} (hx : NonZero N.T.nBus x) (d e : Nat → Polar s) :
    ∑ r ∈ Finset.range N.T.nBus,
      vecs e r ⬝ᵥ ((rowEntries N.S r).map fun k => startTerm N M x (vecs d) r k + elemsTerm N M x (vecs d) r k).sum =
    ((mainReadings N.T N.y.param N.slack M).map (Reading.pair x d e)).sum := by
  have h1 : ∀ r ∈ Finset.range N.T.nBus,
      vecs e r ⬝ᵥ ((rowEntries N.S r).map fun k => startTerm N M x (vecs d) r k + elemsTerm N M x (vecs d) r k).sum =
      vecs e r ⬝ᵥ voltageTerm N M x (vecs d) r +
        ∑ c ∈ Finset.range N.T.nBus, vecs e r ⬝ᵥ nodal N.T (termParam N.y.param M x (vecs d) r c) r c := by
    intro r hr
    have hr' := Finset.mem_range.mp hr
    rw [row_sum hN hr' _ (fun c => (if r = c then voltageTerm N M x (vecs d) r else 0) + nodal N.T (termParam N.y.param M x (vecs d) r c) r c)
      (fun k hk => by rw [elems_nodal hN M x (vecs d) hr' hk]; rfl)
      (fun c hl => by
        rw [if_neg (fun e => hl (Or.inl (Or.inl e))), nodal_zero _ (fun h => hl (Or.inl h)), add_zero])]
    rw [Finset.sum_add_distrib, Finset.sum_ite_eq, if_pos hr, dotProduct_add, dotProduct_sum]
  rw [Finset.sum_congr rfl h1, Finset.sum_add_distrib]
  unfold mainReadings
  simp only [List.map_append, List.sum_append, sum_flatMap_map]
  rw [← sum_range_list, add_assoc]
  congr 1
  · exact Finset.sum_congr rfl fun r hr => voltage_tested M (Finset.mem_range.mp hr) x d e
  · unfold nodal
    simp only [dotProduct_add, dot_list, Finset.sum_add_distrib, sum_swap]
    rw [add_comm]
    congr 1
    · congr 1
      refine List.map_congr_left fun y hy => ?_
      have hy' : y.1 < N.T.nBus := hN.topo.shuntRange y.1 (by
        have := List.mem_zipIdx_iff_getElem?.mp hy
        exact List.mem_of_getElem? this)
      simp only [dot_ite]
      have hp := pick_two N.T.nBus (some y.1) (some y.1) (fun r h => by injection h with h; omega) (fun r h => by injection h with h; omega)
        fun r c => vecs e r ⬝ᵥ (termParam N.y.param M x (vecs d) r c).shunt y.2
      simp only [Option.some.injEq] at hp
      rw [hp]
      exact shunt_tested hu (hx y.1 hy') d e y.2
    · congr 1
      refine List.map_congr_left fun b hb => ?_
      obtain ⟨⟨f, t⟩, k⟩ := b
      have hm := List.mem_of_getElem? (List.mem_zipIdx_iff_getElem?.mp hb)
      obtain ⟨rf, rt⟩ := hN.topo.branchRange _ hm
      unfold branchTerm
      simp only [dotProduct_add, dot_ite, Finset.sum_add_distrib]
      rw [pick_two _ _ _ rf rf, pick_two _ _ _ rf rt, pick_two _ _ _ rt rf, pick_two _ _ _ rt rt]
      have hz' : ∀ o : Option Nat, (o.elim 0 fun r => o.elim 0 fun c => vecs e r ⬝ᵥ (termParam N.y.param M x (vecs d) r c).ff k) = 0 := by
        intro o
        cases o <;> simp [termParam]
      have hz'' : ∀ o : Option Nat, (o.elim 0 fun r => o.elim 0 fun c => vecs e r ⬝ᵥ (termParam N.y.param M x (vecs d) r c).tt k) = 0 := by
        intro o
        cases o <;> simp [termParam]
      rw [hz', hz'', zero_add, add_zero]
      cases f with
      | none =>
        have : ((branchReadings N.y.param M ((none, t), k)).map (Reading.pair x d e)).sum = 0 := by
          have hs := hc _ hb
          unfold branchReadings powerReadings currentReadings
          have h0 : ∀ side, M.branchPower side k = none := fun side => by
            by_contra h
            exact (hs side (Or.inl h)).1 rfl
          have h1 : ∀ side, M.branchCurrent side k = none := fun side => by
            by_contra h
            exact (hs side (Or.inr h)).1 rfl
          simp only [h0, h1]
          rfl
        rw [this]
        cases t <;> simp
      | some f =>
        cases t with
        | none =>
          have : ((branchReadings N.y.param M ((some f, none), k)).map (Reading.pair x d e)).sum = 0 := by
            have hs := hc _ hb
            unfold branchReadings powerReadings currentReadings
            have h0 : ∀ side, M.branchPower side k = none := fun side => by
              by_contra h
              exact (hs side (Or.inl h)).2 rfl
            have h1 : ∀ side, M.branchCurrent side k = none := fun side => by
              by_contra h
              exact (hs side (Or.inr h)).2 rfl
            simp only [h0, h1]
            rfl
          rw [this]
          simp
        | some t => exact branch_tested hu (hx f (rf f rfl)) (hx t (rt t rfl)) d e k

end PGM.NewtonSe
