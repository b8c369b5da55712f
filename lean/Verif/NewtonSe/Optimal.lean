import Verif.NewtonSe.Solve
import Mathlib.LinearAlgebra.Matrix.DotProduct

/-!
# The solution of the equations is the Gauss-Newton step

Lemmas for C55.
-/

namespace PGM.NewtonSe

open PGM.YBus PGM.Lu PGM.PowerFlow PGM.StateEst Matrix
open PGM.NewtonPf (RM Polar phasor)

variable {s : Symm}

/-! ## Directions -/

/-- The sum of two directions. -/
def plus (d e : Nat → Polar s) (b : Nat) : Polar s := ⟨(d b).theta + (e b).theta, (d b).v + (e b).v⟩

/-- The difference of two directions. -/
def minus (d e : Nat → Polar s) (b : Nat) : Polar s := ⟨(d b).theta - (e b).theta, (d b).v - (e b).v⟩

/-- A direction from halves of unknowns. -/
def ofVecs (w : Nat → QV s) (b : Nat) : Polar s := ⟨fun p => w b (.inl p), fun p => w b (.inr p)⟩

theorem plus_minus (d e : Nat → Polar s) : plus d (minus e d) = e := by
  funext b
  simp [plus, minus]

theorem vec_plus (d e : Nat → Polar s) (b : Nat) : vec (plus d e b) = vec (d b) + vec (e b) := by
  funext i
  cases i <;> rfl

theorem vecs_plus (d e : Nat → Polar s) : vecs (plus d e) = vecs d + vecs e := funext fun b => vec_plus d e b

theorem vecs_ofVecs (w : Nat → QV s) : vecs (ofVecs w) = w := by
  funext b i
  cases i <;> rfl

theorem ofVecs_vecs (d : Nat → Polar s) : ofVecs (vecs d) = d := rfl

/-! ## Quadratic functions -/

/-- The prediction has directional derivatives, and these are additive. -/
def Reading.Additive (x : Nat → Polar s) (R : Reading s) : Prop :=
  (∀ d, DifferentiableAt ℝ (fun t => R.predict (move x d t)) 0) ∧ ∀ d e, R.slope x (plus d e) = R.slope x d + R.slope x e

theorem misfit_plus {x : Nat → Polar s} {R : Reading s} (h : R.Additive x) (d e : Nat → Polar s) :
    R.misfit x (plus d e) = R.misfit x d - R.slope x e := by
  unfold Reading.misfit
  rw [h.2]
  ring

/-- The quadratic part of the sum of squares. -/
noncomputable def Reading.energy (x e : Nat → Polar s) (R : Reading s) : ℝ := if R.var = 0 then 0 else R.slope x e ^ 2 / R.var

theorem cost_plus {l : List (Reading s)} {x : Nat → Polar s} (hl : ∀ R ∈ l, R.Additive x) (d e : Nat → Polar s) :
    linearCost l x (plus d e) = linearCost l x d - 2 * (l.map (Reading.pair x d e)).sum + (l.map (Reading.energy x e)).sum := by
  unfold linearCost
  induction l with
  | nil => simp
  | cons R l ih =>
    simp only [List.map_cons, List.sum_cons]
    rw [ih fun R h => hl R (by simp [h]), misfit_plus (hl R (by simp))]
    unfold Reading.pair Reading.energy
    split_ifs with h
    · rw [h]; ring
    · ring

theorem energies_nonneg {l : List (Reading s)} (hv : ∀ R ∈ l, 0 ≤ R.var) (x e : Nat → Polar s) : 0 ≤ (l.map (Reading.energy x e)).sum := by
  apply List.sum_nonneg
  intro a ha
  obtain ⟨R, hR, rfl⟩ := List.mem_map.mp ha
  unfold Reading.energy
  split_ifs
  · rfl
  · exact div_nonneg (sq_nonneg _) (hv R hR)

theorem energies_zero {l : List (Reading s)} (hv : ∀ R ∈ l, 0 ≤ R.var) (x e : Nat → Polar s) (h : (l.map (Reading.energy x e)).sum = 0) :
    ∀ R ∈ l, R.var ≠ 0 → R.slope x e = 0 := by
  induction l with
  | nil => intro R hR; cases hR
  | cons R l ih =>
    rw [List.map_cons, List.sum_cons] at h
    have h2 := energies_nonneg (fun R hR => hv R (by simp [hR])) (l := l) x e
    have h1 : 0 ≤ R.energy x e := by
      unfold Reading.energy
      split_ifs
      · rfl
      · exact div_nonneg (sq_nonneg _) (hv R (by simp))
    intro R' hR' hne
    rcases List.mem_cons.mp hR' with rfl | hR'
    · have h0 : R'.energy x e = 0 := by linarith
      unfold Reading.energy at h0
      rw [if_neg hne, div_eq_zero_iff] at h0
      exact pow_eq_zero_iff (by norm_num) |>.mp (h0.resolve_right hne)
    · exact ih (fun R hR => hv R (by simp [hR])) (by linarith) R' hR' hne

theorem gaussNewton_of_stationary {n : Nat} {l : List (Reading s)} {x d : Nat → Polar s} (ha : ∀ R ∈ l, R.Additive x) (hv : ∀ R ∈ l, 0 ≤ R.var)
    (hm : Meets l x d) (hs : ∀ e, (∀ R ∈ l, R.var = 0 → R.slope x e = 0) → (l.map (Reading.pair x d e)).sum = 0)
    (hu : ∀ e, (∀ R ∈ l, R.slope x e = 0) → ∀ b, b < n → plus d e b = d b) : IsGaussNewtonStep n l x d := by
  refine ⟨hm, fun d' hd' => ?_⟩
  have he : ∀ R ∈ l, R.var = 0 → R.slope x (minus d' d) = 0 := fun R hR h0 => by
    have h1 := misfit_plus (ha R hR) d (minus d' d)
    rw [plus_minus, hm R hR h0, hd' R hR h0] at h1
    linarith
  have hc := cost_plus ha d (minus d' d)
  rw [plus_minus, hs _ he] at hc
  have hn := energies_nonneg hv x (minus d' d)
  refine ⟨by linarith, fun heq b hb => ?_⟩
  have hz := energies_zero hv x (minus d' d) (by linarith)
  have := hu (minus d' d) (fun R hR => by
    by_cases h0 : R.var = 0
    · exact he R hR h0
    · exact hz R hR h0) b hb
  rwa [plus_minus] at this

/-! ## The readings -/

theorem mem_complex {f : (Nat → Polar s) → CV s} {value : CV s} {vr vi : Fin s.phases → ℝ} {R : Reading s} (h : R ∈ complexReadings f value vr vi) :
    ∃ p, R = ⟨fun x => (f x p).re, (value p).re, vr p⟩ ∨ R = ⟨fun x => (f x p).im, (value p).im, vi p⟩ := by
  unfold complexReadings at h
  obtain ⟨p, _, hp⟩ := List.mem_flatMap.mp h
  simp only [List.mem_cons, List.not_mem_nil, or_false] at hp
  exact ⟨p, hp⟩

theorem complex_mem (f : (Nat → Polar s) → CV s) (value : CV s) (vr vi : Fin s.phases → ℝ) (p : Fin s.phases) :
    (⟨fun x => (f x p).re, (value p).re, vr p⟩ : Reading s) ∈ complexReadings f value vr vi ∧
    (⟨fun x => (f x p).im, (value p).im, vi p⟩ : Reading s) ∈ complexReadings f value vr vi := by
  unfold complexReadings
  exact ⟨List.mem_flatMap.mpr ⟨p, List.mem_finRange p, by simp⟩, List.mem_flatMap.mpr ⟨p, List.mem_finRange p, by simp⟩⟩

theorem complex_additive {f : (Nat → Polar s) → CV s} {x : Nat → Polar s} {J : (Nat → Polar s) → QV s} (h : Linearises f x J)
    (hJ : ∀ d e, J (plus d e) = J d + J e) {value : CV s} {vr vi : Fin s.phases → ℝ} {R : Reading s} (hR : R ∈ complexReadings f value vr vi) :
    R.Additive x := by
  refine ⟨fun d => ?_, fun d e => ?_⟩
  · obtain ⟨z, h1, _⟩ := h d
    obtain ⟨p, rfl | rfl⟩ := mem_complex hR
    · exact (Complex.reCLM.hasFDerivAt.comp_hasDerivAt (0 : ℝ) (h1 p)).differentiableAt
    · exact (Complex.imCLM.hasFDerivAt.comp_hasDerivAt (0 : ℝ) (h1 p)).differentiableAt
  obtain ⟨p, rfl | rfl⟩ := mem_complex hR
  · rw [(complex_slope h _ p _ _).1, (complex_slope h _ p _ _).1, (complex_slope h _ p _ _).1, hJ]
    rfl
  · rw [(complex_slope h _ p _ _).2, (complex_slope h _ p _ _).2, (complex_slope h _ p _ _).2, hJ]
    rfl

theorem power_reading_linear (P : Param (CM s)) {x : Nat → Polar s} {f t : Nat} (hf : ∀ p, (x f).v p ≠ 0) (ht : ∀ p, (x t).v p ≠ 0) (k : Nat)
    (side : Fin 2) : ∃ A B : QM s,
      Linearises (fun x => flowPower x (endAt ((some f, some t), k) side) (currentInto P ((some f, some t), k) side (phasors x))) x
        fun d => A.mulVec (vec (d f)) + B.mulVec (vec (d t)) := by
  match side with
  | 0 => exact ⟨_, _, power_linearises (P.ff k) (P.ft k) x f t hf ht⟩
  | 1 =>
    have h := power_linearises (P.tt k) (P.tf k) x t f ht hf
    refine ⟨(powerFlow (P.tt k) (P.tf k) (x t) (x f)).other, (powerFlow (P.tt k) (P.tf k) (x t) (x f)).own, fun d => ?_⟩
    obtain ⟨z, h1, h2⟩ := h d
    refine ⟨z, fun p => ?_, (add_comm _ _).trans h2⟩
    have := h1 p
    simp only [add_comm ((P.tt k).mulVec _)] at this
    exact this

theorem current_reading_linear {P : Param (CM s)} (glob : Bool) {x : Nat → Polar s} {f t : Nat} (hf : ∀ p, (x f).v p ≠ 0)
    (ht : ∀ p, (x t).v p ≠ 0) (k : Nat) (side : Fin 2) (hu : ∀ o, Uncoupled (branchValue P k side o)) : ∃ A B : QM s,
      Linearises (fun x => shownCurrent glob x (endAt ((some f, some t), k) side) (currentInto P ((some f, some t), k) side (phasors x))) x
        fun d => A.mulVec (vec (d f)) + B.mulVec (vec (d t)) := by
  match side, hu with
  | 0, hu => exact ⟨_, _, (current_linearises glob (hu 0) (hu 1) x f t hf ht).1⟩
  | 1, hu =>
    have h := (current_linearises glob (hu 1) (hu 0) x t f ht hf).1
    refine ⟨(currentFlow glob (branchValue P k 1 1) (branchValue P k 1 0) (x t) (x f)).other,
      (currentFlow glob (branchValue P k 1 1) (branchValue P k 1 0) (x t) (x f)).own, fun d => ?_⟩
    obtain ⟨z, h1, h2⟩ := h d
    refine ⟨z, fun p => ?_, (add_comm _ _).trans h2⟩
    have := h1 p
    simp only [add_comm ((branchValue P k 1 1).mulVec _)] at this
    exact this

theorem linear_plus (A B : QM s) (a b : Nat) (d e : Nat → Polar s) :
    A.mulVec (vec (plus d e a)) + B.mulVec (vec (plus d e b)) =
      (A.mulVec (vec (d a)) + B.mulVec (vec (d b))) + (A.mulVec (vec (e a)) + B.mulVec (vec (e b))) := by
  rw [vec_plus, vec_plus, mulVec_add, mulVec_add]
  abel

theorem positive_complex {f : (Nat → Polar s) → CV s} {value : CV s} {vr vi : Fin s.phases → ℝ} (hv : ∀ p, 0 < vr p ∧ 0 < vi p) {R : Reading s}
    (hR : R ∈ complexReadings f value vr vi) : 0 < R.var := by
  obtain ⟨p, rfl | rfl⟩ := mem_complex hR
  · exact (hv p).1
  · exact (hv p).2

theorem voltage_additive {n slack : Nat} {M : Measured s} (hM : Variances M) {b : Nat} (x : Nat → Polar s) {R : Reading s}
    (hR : R ∈ voltageReadings n slack M b) : R.Additive x ∧ 0 < R.var := by
  unfold voltageReadings at hR
  cases hm : M.voltage b with
  | none => rw [hm] at hR; cases hR
  | some m =>
    rw [hm] at hR
    simp only [List.mem_append] at hR
    rcases hR with hR | hR
    · obtain ⟨p, _, rfl⟩ := List.mem_map.mp hR
      exact ⟨⟨fun d => by unfold move; simp only; fun_prop, fun d e => by rw [slope_v, slope_v, slope_v]; rfl⟩, hM.voltage b m hm⟩
    · cases ha : measuredAngle n slack M b m.value with
      | none => rw [ha] at hR; cases hR
      | some a =>
        rw [ha] at hR
        obtain ⟨p, _, rfl⟩ := List.mem_map.mp hR
        exact ⟨⟨fun d => by unfold move; simp only; fun_prop, fun d e => by rw [slope_theta, slope_theta, slope_theta]; rfl⟩, hM.voltage b m hm⟩

theorem shunt_additive {P : Param (CM s)} {M : Measured s} (hM : Variances M) (hu : MeasuredUncoupled P M) {x : Nat → Polar s} {y : Nat × Nat}
    (hy : ∀ p, (x y.1).v p ≠ 0) {R : Reading s} (hR : R ∈ shuntReadings P M y) : R.Additive x ∧ 0 < R.var := by
  unfold shuntReadings at hR
  cases hm : M.shunt y.2 with
  | none => rw [hm] at hR; cases hR
  | some m =>
    rw [hm] at hR
    exact ⟨complex_additive (shunt_linearises (hu.shunt y.2 m hm) x y.1 hy) (fun d e => by
      show _ *ᵥ vec (plus d e y.1) = _ *ᵥ vec (d y.1) + _ *ᵥ vec (e y.1)
      rw [vec_plus, mulVec_add]) hR, positive_complex (hM.shunt y.2 m hm) hR⟩

theorem branch_additive {T : Topo} (hv : T.Valid) {P : Param (CM s)} {M : Measured s} (hM : Variances M) (hu : MeasuredUncoupled P M)
    (hc : MeasuredClosed T M) {x : Nat → Polar s} (hx : NonZero T.nBus x) {b : (Option Nat × Option Nat) × Nat} (hb : b ∈ T.branches.zipIdx)
    {R : Reading s} (hR : R ∈ branchReadings P M b) : R.Additive x ∧ 0 < R.var := by
  obtain ⟨⟨f, t⟩, k⟩ := b
  obtain ⟨rf, rt⟩ := hv.branchRange _ (List.mem_of_getElem? (List.mem_zipIdx_iff_getElem?.mp hb))
  have hp : ∀ side, R ∈ powerReadings P M ((f, t), k) side → R.Additive x ∧ 0 < R.var := by
    intro side hR
    unfold powerReadings at hR
    cases hm : M.branchPower side k with
    | none => simp only [hm] at hR; cases hR
    | some m =>
      simp only [hm] at hR
      obtain ⟨h1, h2⟩ := hc _ hb side (Or.inl (by simp [hm]))
      obtain ⟨f, rfl⟩ := Option.ne_none_iff_exists'.mp h1
      obtain ⟨t, rfl⟩ := Option.ne_none_iff_exists'.mp h2
      obtain ⟨A, B, h⟩ := power_reading_linear P (hx f (rf f rfl)) (hx t (rt t rfl)) k side
      exact ⟨complex_additive h (linear_plus A B f t) hR, positive_complex (hM.power side k m hm) hR⟩
  have hq : ∀ side, R ∈ currentReadings P M ((f, t), k) side → R.Additive x ∧ 0 < R.var := by
    intro side hR
    unfold currentReadings at hR
    cases hm : M.branchCurrent side k with
    | none => simp only [hm] at hR; cases hR
    | some m =>
      simp only [hm] at hR
      obtain ⟨h1, h2⟩ := hc _ hb side (Or.inr (by simp [hm]))
      obtain ⟨f, rfl⟩ := Option.ne_none_iff_exists'.mp h1
      obtain ⟨t, rfl⟩ := Option.ne_none_iff_exists'.mp h2
      obtain ⟨A, B, h⟩ := current_reading_linear m.globalAngle (hx f (rf f rfl)) (hx t (rt t rfl)) k side
        (hu.branch side k (Or.inr (by rw [hm]; simp)))
      exact ⟨complex_additive h (linear_plus A B f t) hR, positive_complex (hM.current side k m hm) hR⟩
  unfold branchReadings at hR
  simp only [List.mem_append] at hR
  rcases hR with ((h | h) | h) | h
  · exact hp 0 h
  · exact hp 1 h
  · exact hq 0 h
  · exact hq 1 h

theorem main_additive {T : Topo} (hv : T.Valid) {P : Param (CM s)} {slack : Nat} {M : Measured s} (hM : Variances M) (hu : MeasuredUncoupled P M)
    (hc : MeasuredClosed T M) {x : Nat → Polar s} (hx : NonZero T.nBus x) {R : Reading s} (hR : R ∈ mainReadings T P slack M) :
    R.Additive x ∧ 0 < R.var := by
  unfold mainReadings at hR
  simp only [List.mem_append, List.mem_flatMap] at hR
  rcases hR with (⟨b, _, h⟩ | ⟨y, hy, h⟩) | ⟨b, hb, h⟩
  · exact voltage_additive hM x h
  · exact shunt_additive hM hu (hx y.1 (hv.shuntRange y.1 (List.mem_of_getElem? (List.mem_zipIdx_iff_getElem?.mp hy)))) h
  · exact branch_additive hv hM hu hc hx hb h

theorem mem_injection {T : Topo} {P : Param (CM s)} {M : Measured s} {R : Reading s}
    (hR : R ∈ (List.range T.nBus).flatMap (injectionReadings T P M)) :
    ∃ b m, b < T.nBus ∧ M.injection b = some m ∧ R ∈ complexReadings (injPower T P b) m.value m.vp m.vq := by
  obtain ⟨b, hb, h⟩ := List.mem_flatMap.mp hR
  unfold injectionReadings at h
  cases hm : M.injection b with
  | none => rw [hm] at h; cases h
  | some m =>
    rw [hm] at h
    exact ⟨b, m, List.mem_range.mp hb, hm, h⟩

theorem injection_mem {T : Topo} {P : Param (CM s)} {M : Measured s} {b : Nat} {m : PowerM s} (hb : b < T.nBus) (hm : M.injection b = some m)
    {R : Reading s} (hR : R ∈ complexReadings (injPower T P b) m.value m.vp m.vq) : R ∈ (List.range T.nBus).flatMap (injectionReadings T P M) := by
  refine List.mem_flatMap.mpr ⟨b, List.mem_range.mpr hb, ?_⟩
  unfold injectionReadings
  rw [hm]
  exact hR

theorem injection_additive {T : Topo} (P : Param (CM s)) {x : Nat → Polar s} (hx : NonZero T.nBus x) {b : Nat} (hb : b < T.nBus) {value : CV s}
    {vr vi : Fin s.phases → ℝ} {R : Reading s} (hR : R ∈ complexReadings (injPower T P b) value vr vi) : R.Additive x :=
  complex_additive (injection_linearises T P hx hb) (fun d e => by rw [vecs_plus, injSlope_add]) hR

/-! ## The equations -/

theorem sum_blocks {N : SeNet s} (hN : N.Valid) (x : Sys s) (g : Block s → QM s) (h0 : g .zero = 0) {r : Nat} (hr : r < N.T.nBus)
    (d : Nat → QV s) :
    ∑ k ∈ (rowEntries N.S r).toFinset, (g (getB x k)).mulVec (d (colOf N.S k)) = ∑ c ∈ Finset.range N.T.nBus, (g (blockAt N.S x r c)).mulVec (d c) := by
  rw [List.sum_toFinset _ (entries_nodup N.S r)]
  refine row_sum hN hr _ _ (fun k hk => ?_) fun c hl => ?_
  · rw [blockAt_entry hN x ((mem_entries hN hr).mp hk)]
  · rw [blockAt_none hN x hr hl, h0, zero_mulVec]

/-- The first half of the equations of a row, without the multipliers. -/
noncomputable def mainTerm (N : SeNet s) (M : Measured s) (x : Nat → Polar s) (d : Nat → QV s) (r : Nat) : QV s :=
  ((rowEntries N.S r).map fun k => startTerm N M x d r k + elemsTerm N M x d r k).sum

/-- The second half. -/
noncomputable def injPart (N : SeNet s) (M : Measured s) (x : Nat → Polar s) (d : Nat → QV s) (r : Nat) : QV s :=
  match M.injection r with
  | some m => parts (m.value - injPower N.T N.y.param r x) - injSlope N.T N.y.param x r d
  | none => 0

/-- The derivatives of the measured injections. -/
noncomputable def measuredSlope (N : SeNet s) (M : Measured s) (x : Nat → Polar s) (d : Nat → QV s) (r : Nat) : QV s :=
  match M.injection r with
  | some _ => injSlope N.T N.y.param x r d
  | none => 0

variable {N : SeNet s} {M : Measured s} {st : State s} {x : Sys s}

theorem Prepared.eta (hN : N.Valid) (h : Prepared N M st x) {r : Nat} (hr : r < N.T.nBus) (d : Nat → QV s) :
    (x.rhs r).eta = mainTerm N M st.x d r + ∑ c ∈ Finset.range N.T.nBus, (blockAt N.S x r c).qt.mulVec (st.phi c) +
      ∑ c ∈ Finset.range N.T.nBus, (blockAt N.S x r c).g.mulVec (d c) := by
  have h1 := h.first r hr d
  unfold defect1 at h1
  rw [sum_blocks hN x Block.g rfl hr] at h1
  have h2 : ((rowEntries N.S r).map fun k => (getB x k).qt.mulVec (st.phi (colOf N.S k))).sum =
      ∑ c ∈ Finset.range N.T.nBus, (blockAt N.S x r c).qt.mulVec (st.phi c) := by
    rw [← sum_blocks hN x Block.qt rfl hr, List.sum_toFinset _ (entries_nodup N.S r)]
  rw [h2] at h1
  rw [sub_eq_iff_eq_add] at h1
  exact h1

theorem Prepared.tau (hN : N.Valid) (h : Prepared N M st x) {r : Nat} (hr : r < N.T.nBus) (d : Nat → QV s) :
    (x.rhs r).tau = injPart N M st.x d r + ∑ c ∈ Finset.range N.T.nBus, (blockAt N.S x r c).q.mulVec (d c) := by
  have h1 := h.second r hr d
  unfold defect2 at h1
  rw [sum_blocks hN x Block.q rfl hr, second_eq hN M st.x d hr, sub_eq_iff_eq_add] at h1
  exact h1

theorem Prepared.rblock (hN : N.Valid) (h : Prepared N M st x) {r : Nat} (hr : r < N.T.nBus) (d : Nat → QV s) :
    ∑ c ∈ Finset.range N.T.nBus, (blockAt N.S x r c).r.mulVec (d c) = (rBlock M r).mulVec (d r) := by
  rw [Finset.sum_eq_single_of_mem r (Finset.mem_range.mpr hr)]
  · have hd := diag_entry hN hr
    have hk : N.S.diagLu[r]?.getD 0 ∈ rowEntries N.S r := by rw [mem_entries hN hr, colOf_entry hd]; exact hd
    rw [blockAt_entry hN x hd, h.r r hr _ hk, if_pos (colOf_entry hd)]
  · intro c _ hc
    by_cases hl : InLu N.T r c
    · obtain ⟨k, hk⟩ := ((net_structure hN).lu.pattern r hr c).mpr hl
      have hm : k ∈ rowEntries N.S r := by rw [mem_entries hN hr, colOf_entry hk]; exact hk
      rw [blockAt_entry hN x hk, h.r r hr k hm, if_neg (by rw [colOf_entry hk]; exact hc), zero_mulVec]
    · rw [blockAt_none hN x hr hl]
      exact zero_mulVec _

theorem Prepared.transposed (hN : N.Valid) (h : Prepared N M st x) {r c : Nat} (hr : r < N.T.nBus) (hc : c < N.T.nBus) :
    (blockAt N.S x r c).qt = ((blockAt N.S x c r).q).transpose := by
  by_cases hex : ∃ k, EntryAt N.S.rowIndptrLu N.S.colIndicesLu r c k
  · obtain ⟨k, hk⟩ := hex
    obtain ⟨k', h1, h2⟩ := (net_structure hN).transpose.2 _ _ _ hk
    have hm : k ∈ rowEntries N.S r := by rw [mem_entries hN hr, colOf_entry hk]; exact hk
    rw [blockAt_entry hN x hk, blockAt_entry hN x h2, h.qt r hr k hm, h1]
    rfl
  · have hl : ¬ InLu N.T r c := fun hl => hex (((net_structure hN).lu.pattern r hr c).mpr hl)
    have hl' : ¬ InLu N.T c r := fun hl' => by
      obtain ⟨k, hk⟩ := ((net_structure hN).lu.pattern c hc r).mpr hl'
      obtain ⟨k', _, h2⟩ := (net_structure hN).transpose.2 _ _ _ hk
      exact hex ⟨k', h2⟩
    rw [blockAt_none hN x hr hl, blockAt_none hN x hc hl']
    exact transpose_zero.symm

theorem Prepared.q (hN : N.Valid) (h : Prepared N M st x) {r : Nat} (hr : r < N.T.nBus) (d : Nat → QV s) :
    ∑ c ∈ Finset.range N.T.nBus, (blockAt N.S x r c).q.mulVec (d c) = measuredSlope N M st.x d r := by
  have h1 := h.tau hN hr d
  have h2 := h.tau hN hr 0
  rw [h1] at h2
  have h3 : ∑ c ∈ Finset.range N.T.nBus, (blockAt N.S x r c).q.mulVec ((0 : Nat → QV s) c) = 0 :=
    Finset.sum_eq_zero fun c _ => mulVec_zero _
  rw [h3, add_zero] at h2
  rw [← sub_eq_iff_eq_add'.mpr h2.symm]
  unfold injPart measuredSlope
  cases M.injection r with
  | none => simp
  | some m =>
    have h0 : injSlope N.T N.y.param st.x r 0 = 0 := by
      have := injSlope_add N.T N.y.param st.x r 0 0
      simpa using this
    simp only [h0]
    abel

/-- The equations, without the details of the blocks. -/
theorem rows_iff (hN : N.Valid) (h : Prepared N M st x) (z : Nat → Rhs s) :
    RowEqs N x z ↔ ∀ r, r < N.T.nBus →
      mainTerm N M st.x (fun c => (z c).eta) r = ∑ c ∈ Finset.range N.T.nBus, (blockAt N.S x r c).qt.mulVec ((z c).tau - st.phi c) ∧
      injPart N M st.x (fun c => (z c).eta) r = (rBlock M r).mulVec ((z r).tau) := by
  unfold RowEqs
  refine forall_congr' fun r => forall_congr' fun hr => ?_
  rw [h.eta hN hr fun c => (z c).eta, h.tau hN hr fun c => (z c).eta, Finset.sum_add_distrib, Finset.sum_add_distrib,
    h.rblock hN hr fun c => (z c).tau]
  simp only [mulVec_sub, Finset.sum_sub_distrib]
  constructor
  · rintro ⟨h1, h2⟩
    refine ⟨?_, ?_⟩
    · rw [add_comm, add_left_inj] at h1
      rw [h1]
      abel
    · rw [add_comm, add_left_inj] at h2
      exact h2.symm
  · rintro ⟨h1, h2⟩
    rw [h1, h2]
    constructor <;> abel

theorem main_linear (hN : N.Valid) (h : Prepared N M st x) {r : Nat} (hr : r < N.T.nBus) (d e : Nat → QV s) :
    mainTerm N M st.x (d + e) r = mainTerm N M st.x d r - ∑ c ∈ Finset.range N.T.nBus, (blockAt N.S x r c).g.mulVec (e c) := by
  have h1 := h.eta hN hr d
  rw [h.eta hN hr (d + e)] at h1
  simp only [Pi.add_apply, mulVec_add, Finset.sum_add_distrib] at h1
  have : ∀ a b c p q : QV s, a + p + (q + c) = b + p + q → a = b - c := by
    intro a b c p q h
    have : a = (a + p + (q + c)) - p - q - c := by abel
    rw [this, h]
    abel
  exact this _ _ _ _ _ h1

/-- The multipliers, tested. -/
theorem multipliers_tested (hN : N.Valid) (h : Prepared N M st x) (w μ : Nat → QV s) :
    ∑ r ∈ Finset.range N.T.nBus, w r ⬝ᵥ ∑ c ∈ Finset.range N.T.nBus, (blockAt N.S x r c).qt.mulVec (μ c) =
      ∑ c ∈ Finset.range N.T.nBus, μ c ⬝ᵥ measuredSlope N M st.x w c := by
  have h1 : ∀ c ∈ Finset.range N.T.nBus, μ c ⬝ᵥ measuredSlope N M st.x w c =
      ∑ r ∈ Finset.range N.T.nBus, w r ⬝ᵥ (blockAt N.S x r c).qt.mulVec (μ c) := by
    intro c hc
    rw [← h.q hN (Finset.mem_range.mp hc) w, dotProduct_sum]
    refine Finset.sum_congr rfl fun r hr => ?_
    rw [h.transposed hN (Finset.mem_range.mp hr) (Finset.mem_range.mp hc), dotProduct_mulVec (w r), vecMul_transpose, dotProduct_comm]
  rw [Finset.sum_congr rfl h1, Finset.sum_comm]
  exact Finset.sum_congr rfl fun r _ => dotProduct_sum _ _ _

/-- Multipliers are only kept for constraints. -/
def PhiOk (M : Measured s) (phi : Nat → QV s) : Prop :=
  ∀ b m, M.injection b = some m → ∀ p, (m.vp p ≠ 0 → phi b (.inl p) = 0) ∧ (m.vq p ≠ 0 → phi b (.inr p) = 0)

/-- The variances of a measurement. -/
def variance (m : PowerM s) : QV s := Sum.elim m.vp m.vq

theorem rBlock_some {r : Nat} {m : PowerM s} (hm : M.injection r = some m) (v : QV s) (i : Two s) : (rBlock M r).mulVec v i = -(variance m i * v i) := by
  unfold rBlock rDiag
  rw [hm, fromBlocks_mulVec]
  rcases i with p | p
  · simp [mulVec_diagonal, variance]
  · simp [mulVec_diagonal, variance]

/-- **The solution of the equations is the Gauss-Newton step.** -/
theorem step_is_gaussNewton (hN : N.Valid) (hM : Variances M) (hu : MeasuredUncoupled N.y.param M) (hc : MeasuredClosed N.T M)
    (hx : NonZero N.T.nBus st.x) (hp : PhiOk M st.phi) (h : Prepared N M st x) {z : Nat → Rhs s} (hz : RowEqs N x z)
    (hunique : ∀ z', RowEqs N x z' → ∀ b, b < N.T.nBus → z' b = z b) :
    IsGaussNewtonStep N.T.nBus (readings N.T N.y.param N.slack M) st.x fun b => (z b).polar := by
  have hrows := (rows_iff hN h z).mp hz
  have hd : vecs (fun b => (z b).polar) = fun b => (z b).eta := by
    funext b i
    cases i <;> rfl
  have hmain : ∀ d e : Nat → Polar s, ((mainReadings N.T N.y.param N.slack M).map (Reading.pair st.x d e)).sum =
      ∑ r ∈ Finset.range N.T.nBus, vecs e r ⬝ᵥ mainTerm N M st.x (vecs d) r := fun d e => (first_tested hN hu hc hx d e).symm
  -- slopes and deviations of injections
  have hslope : ∀ b m, b < N.T.nBus → M.injection b = some m → ∀ e p,
      Reading.slope ⟨fun x => (injPower N.T N.y.param b x p).re, (m.value p).re, m.vp p⟩ st.x e = measuredSlope N M st.x (vecs e) b (.inl p) ∧
      Reading.slope ⟨fun x => (injPower N.T N.y.param b x p).im, (m.value p).im, m.vq p⟩ st.x e = measuredSlope N M st.x (vecs e) b (.inr p) := by
    intro b m hb hm e p
    rw [(complex_slope (injection_linearises N.T N.y.param hx hb) e p _ _).1, (complex_slope (injection_linearises N.T N.y.param hx hb) e p _ _).2]
    unfold measuredSlope
    rw [hm]
    exact ⟨rfl, rfl⟩
  have hmis : ∀ b m, b < N.T.nBus → M.injection b = some m → ∀ d p,
      Reading.misfit ⟨fun x => (injPower N.T N.y.param b x p).re, (m.value p).re, m.vp p⟩ st.x d = injPart N M st.x (vecs d) b (.inl p) ∧
      Reading.misfit ⟨fun x => (injPower N.T N.y.param b x p).im, (m.value p).im, m.vq p⟩ st.x d = injPart N M st.x (vecs d) b (.inr p) := by
    intro b m hb hm d p
    rw [(complex_misfit (injection_linearises N.T N.y.param hx hb) d m.value p _).1,
      (complex_misfit (injection_linearises N.T N.y.param hx hb) d m.value p _).2]
    unfold injPart
    rw [hm]
    exact ⟨rfl, rfl⟩
  have hadd : ∀ R ∈ readings N.T N.y.param N.slack M, R.Additive st.x ∧ 0 ≤ R.var := by
    intro R hR
    rcases List.mem_append.mp hR with hR | hR
    · exact ⟨(main_additive hN.topo hM hu hc hx hR).1, (main_additive hN.topo hM hu hc hx hR).2.le⟩
    · obtain ⟨b, m, hb, hm, hR⟩ := mem_injection hR
      refine ⟨injection_additive N.y.param hx hb hR, ?_⟩
      obtain ⟨p, rfl | rfl⟩ := mem_complex hR
      · exact (hM.injection b m hm p).1
      · exact (hM.injection b m hm p).2
  refine gaussNewton_of_stationary (fun R hR => (hadd R hR).1) (fun R hR => (hadd R hR).2) ?_ ?_ ?_
  · -- constraints
    intro R hR h0
    rcases List.mem_append.mp hR with hR | hR
    · exact absurd h0 (main_additive hN.topo hM hu hc hx hR).2.ne'
    · obtain ⟨b, m, hb, hm, hR⟩ := mem_injection hR
      have h2 := (hrows b hb).2
      rw [← hd] at h2
      obtain ⟨p, rfl | rfl⟩ := mem_complex hR
      · rw [(hmis b m hb hm _ p).1, h2, rBlock_some hm]
        show -(m.vp p * _) = 0
        rw [show m.vp p = 0 from h0]
        ring
      · rw [(hmis b m hb hm _ p).2, h2, rBlock_some hm]
        show -(m.vq p * _) = 0
        rw [show m.vq p = 0 from h0]
        ring
  · -- stationarity
    intro e he
    have hinj : ((((List.range N.T.nBus).flatMap (injectionReadings N.T N.y.param M))).map (Reading.pair st.x (fun b => (z b).polar) e)).sum =
        ∑ c ∈ Finset.range N.T.nBus, -(((z c).tau - st.phi c) ⬝ᵥ measuredSlope N M st.x (vecs e) c) := by
      rw [sum_flatMap_map, ← sum_range_list]
      refine Finset.sum_congr rfl fun c hc' => ?_
      have hc' := Finset.mem_range.mp hc'
      unfold injectionReadings
      cases hm : M.injection c with
      | none =>
        unfold measuredSlope
        rw [hm]
        simp
      | some m =>
        dsimp only
        rw [show (fun x => flowPower x (some c) (nodalCurrent N.T N.y.param (phasors x) c)) = injPower N.T N.y.param c from rfl, sum_complex]
        unfold dotProduct
        rw [Fintype.sum_sum_type, ← Finset.sum_add_distrib, ← Finset.sum_neg_distrib]
        refine Finset.sum_congr rfl fun p _ => ?_
        unfold Reading.pair
        have h2 := (hrows c hc').2
        rw [← hd] at h2
        rw [(hmis c m hc' hm _ p).1, (hmis c m hc' hm _ p).2, (hslope c m hc' hm e p).1, (hslope c m hc' hm e p).2, h2, rBlock_some hm, rBlock_some hm]
        simp only [variance, Sum.elim_inl, Sum.elim_inr, Pi.sub_apply]
        have hre : -(m.vp p * (z c).tau (.inl p)) * measuredSlope N M st.x (vecs e) c (.inl p) / m.vp p =
            -(((z c).tau (.inl p) - st.phi c (.inl p)) * measuredSlope N M st.x (vecs e) c (.inl p)) := by
          by_cases h0 : m.vp p = 0
          · have := he _ (List.mem_append_right _ (injection_mem hc' hm (complex_mem _ _ _ _ p).1)) h0
            rw [(hslope c m hc' hm e p).1] at this
            rw [this]
            simp
          · rw [((hp c m hm p).1 h0)]
            field_simp
            ring
        have him : -(m.vq p * (z c).tau (.inr p)) * measuredSlope N M st.x (vecs e) c (.inr p) / m.vq p =
            -(((z c).tau (.inr p) - st.phi c (.inr p)) * measuredSlope N M st.x (vecs e) c (.inr p)) := by
          by_cases h0 : m.vq p = 0
          · have := he _ (List.mem_append_right _ (injection_mem hc' hm (complex_mem _ _ _ _ p).2)) h0
            rw [(hslope c m hc' hm e p).2] at this
            rw [this]
            simp
          · rw [((hp c m hm p).2 h0)]
            field_simp
            ring
        rw [hre, him]
        ring
    unfold readings
    rw [List.map_append, List.sum_append, hinj, hmain, hd, Finset.sum_neg_distrib, ← multipliers_tested hN h (vecs e)]
    rw [Finset.sum_congr rfl fun r hr => by rw [(hrows r (Finset.mem_range.mp hr)).1]]
    exact add_neg_cancel _
  · -- uniqueness
    intro e he b hb
    have hs : ∀ r, r < N.T.nBus → measuredSlope N M st.x (vecs e) r = 0 := by
      intro r hr
      cases hm : M.injection r with
      | none => unfold measuredSlope; rw [hm]
      | some m =>
        funext i
        rcases i with p | p
        · rw [← (hslope r m hr hm e p).1]
          exact he _ (List.mem_append_right _ (injection_mem hr hm (complex_mem _ _ _ _ p).1))
        · rw [← (hslope r m hr hm e p).2]
          exact he _ (List.mem_append_right _ (injection_mem hr hm (complex_mem _ _ _ _ p).2))
    have hg : ∀ w : Nat → QV s, ∑ r ∈ Finset.range N.T.nBus, w r ⬝ᵥ ∑ c ∈ Finset.range N.T.nBus, (blockAt N.S x r c).g.mulVec (vecs e c) = 0 := by
      intro w
      have h1 := hmain (fun b => (z b).polar) (ofVecs w)
      have h2 := hmain (plus (fun b => (z b).polar) e) (ofVecs w)
      rw [vecs_ofVecs] at h1 h2
      rw [vecs_plus] at h2
      have e1 : ((mainReadings N.T N.y.param N.slack M).map (Reading.pair st.x (plus (fun b => (z b).polar) e) (ofVecs w))).sum =
          ((mainReadings N.T N.y.param N.slack M).map (Reading.pair st.x (fun b => (z b).polar) (ofVecs w))).sum := by
        congr 1
        refine List.map_congr_left fun R hR => ?_
        unfold Reading.pair
        rw [misfit_plus (main_additive hN.topo hM hu hc hx hR).1, he R (List.mem_append_left _ hR), sub_zero]
      rw [e1, h1] at h2
      have h3 : ∀ r ∈ Finset.range N.T.nBus, w r ⬝ᵥ mainTerm N M st.x (vecs (fun b => (z b).polar) + vecs e) r =
          w r ⬝ᵥ mainTerm N M st.x (vecs fun b => (z b).polar) r -
            w r ⬝ᵥ ∑ c ∈ Finset.range N.T.nBus, (blockAt N.S x r c).g.mulVec (vecs e c) := fun r hr => by
        rw [main_linear hN h (Finset.mem_range.mp hr), dotProduct_sub]
      rw [Finset.sum_congr rfl h3, Finset.sum_sub_distrib] at h2
      linarith
    have hg0 : ∀ r, r < N.T.nBus → ∑ c ∈ Finset.range N.T.nBus, (blockAt N.S x r c).g.mulVec (vecs e c) = 0 := by
      intro r hr
      have := hg fun r' => if r' = r then ∑ c ∈ Finset.range N.T.nBus, (blockAt N.S x r c).g.mulVec (vecs e c) else 0
      rw [Finset.sum_eq_single_of_mem r (Finset.mem_range.mpr hr) (fun r' _ hne => by rw [if_neg hne, zero_dotProduct]), if_pos rfl] at this
      exact dotProduct_self_eq_zero.mp this
    have hz' : RowEqs N x fun c => ⟨(z c).eta + vecs e c, (z c).tau⟩ := by
      rw [rows_iff hN h]
      intro r hr
      have e1 : (fun c => (z c).eta + vecs e c) = (fun c => (z c).eta) + vecs e := rfl
      dsimp only
      rw [e1, main_linear hN h hr, hg0 r hr, sub_zero]
      refine ⟨(hrows r hr).1, ?_⟩
      rw [← (hrows r hr).2]
      have := hs r hr
      unfold measuredSlope at this
      unfold injPart
      cases hm : M.injection r with
      | none => rfl
      | some m =>
        simp only [hm] at this ⊢
        rw [injSlope_add, this, add_zero]
    have h1 := hunique _ hz' b hb
    have h2 : vecs e b = 0 := by
      have := congrArg Rhs.eta h1
      simpa using this
    unfold plus
    have ht : (e b).theta = 0 := funext fun p => congrFun h2 (.inl p)
    have hv : (e b).v = 0 := funext fun p => congrFun h2 (.inr p)
    rw [ht, hv, add_zero, add_zero]

end PGM.NewtonSe
