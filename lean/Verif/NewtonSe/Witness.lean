import Verif.NewtonSe.Examples
import Mathlib.Analysis.SpecialFunctions.Trigonometric.Deriv

/-!
# C55: why it is only proved in part

Two grids with one bus on which an iteration does not change the voltages although they are not the least squares estimate of the linearised readings.
In the first, a sensor at a branch that is connected at one side only is not used. In the second, a shunt couples the phases.
-/

namespace PGM.NewtonSe

open PGM.YBus PGM.Lu PGM.PowerFlow PGM.StateEst Matrix
open PGM.NewtonPf (RM Polar phasor)

variable {s : Symm}

/-! ## Grids with one bus -/

/-- A matrix close to one is well conditioned. -/
theorem near_one {g E : QM s} (hg : ∀ v, g.mulVec v = v + E.mulVec v) (hE : ∀ i, ∑ j, |E i j| ≤ 1 / 2) (v : QV s) (t : ℝ)
    (h : ∀ i, |g.mulVec v i| ≤ t) (i : Two s) : |v i| ≤ 2 * t := by
  obtain ⟨k, _, hk⟩ := Finset.exists_max_image Finset.univ (fun j => |v j|) ⟨i, Finset.mem_univ i⟩
  have h1 : |E.mulVec v k| ≤ 1 / 2 * |v k| := by
    unfold Matrix.mulVec dotProduct
    refine (Finset.abs_sum_le_sum_abs _ _).trans ?_
    calc ∑ j, |E k j * v j| ≤ ∑ j, |E k j| * |v k| := Finset.sum_le_sum fun j hj => by
          rw [abs_mul]
          exact mul_le_mul_of_nonneg_left (hk j hj) (abs_nonneg _)
      _ = (∑ j, |E k j|) * |v k| := by rw [Finset.sum_mul]
      _ ≤ 1 / 2 * |v k| := mul_le_mul_of_nonneg_right (hE k) (abs_nonneg _)
  have h2 : |v k| ≤ t + 1 / 2 * |v k| := by
    have e : v k = g.mulVec v k - E.mulVec v k := by
      rw [hg]
      simp
    calc |v k| = |g.mulVec v k - E.mulVec v k| := by rw [← e]
      _ ≤ |g.mulVec v k| + |E.mulVec v k| := abs_sub _ _
      _ ≤ t + 1 / 2 * |v k| := add_le_add (h k) h1
  have := hk i (Finset.mem_univ i)
  linarith

theorem near_one_accepted {g E : QM s} (hg : ∀ v, g.mulVec v = v + E.mulVec v) (hE : ∀ i, ∑ j, |E i j| ≤ 1 / 2) (flag : Bool) :
    factorizeBlock 0 false (Block.toBlk ⟨g, 0, 0, -1⟩) flag ≠ none := by
  have hgE : g = 1 + E := by
    apply Matrix.ext_of_mulVec_single
    intro i
    rw [hg, add_mulVec, one_mulVec]
  have hent : ∀ i j, |E i j| ≤ 1 / 2 := fun i j =>
    (Finset.single_le_sum (f := fun j => |E i j|) (fun _ _ => abs_nonneg _) (Finset.mem_univ j)).trans (hE i)
  refine factorize_conditioned _ flag (m := 2) (c := 2) ?_ ?_ ?_
  · intro i j
    rw [Real.norm_eq_abs]
    unfold Block.toBlk
    rw [submatrix_apply]
    generalize (slot s).symm i = a
    generalize (slot s).symm j = b
    have h1 : ∀ a b : Two s, |(1 : QM s) a b| ≤ 1 := fun a b => by
      rw [Matrix.one_apply]
      split_ifs <;> simp
    rcases a with a | a <;> rcases b with b | b
    · rw [fromBlocks_apply₁₁]
      dsimp only
      rw [hgE, Matrix.add_apply]
      refine (abs_add_le _ _).trans ?_
      linarith [h1 a b, hent a b]
    · rw [fromBlocks_apply₁₂]
      simp
    · rw [fromBlocks_apply₂₁]
      simp
    · rw [fromBlocks_apply₂₂]
      show |(-1 : QM s) a b| ≤ 2
      rw [Matrix.neg_apply, abs_neg]
      linarith [h1 a b]
  · intro y t h i
    simp only [Real.norm_eq_abs] at h ⊢
    have hcomp : ∀ j : Two s ⊕ Two s, |Sum.elim (g.mulVec (ofVec y).eta) (-(ofVec y).tau) j| ≤ t := fun j => by
      have := h (slot s j)
      rw [toBlk_act] at this
      simp only [Rhs.toVec, Equiv.symm_apply_apply, zero_mulVec, add_zero, zero_add, neg_mulVec, one_mulVec] at this
      exact this
    have ht : 0 ≤ t := (abs_nonneg _).trans (h i)
    obtain ⟨j, rfl⟩ := (slot s).surjective i
    rcases j with j | j
    · exact near_one hg hE (ofVec y).eta t (fun k => hcomp (.inl k)) j
    · have := hcomp (.inr j)
      simp only [Sum.elim_inr, Pi.neg_apply, abs_neg] at this
      have e : |y (slot s (.inr j))| ≤ t := this
      linarith
  · have hp : s.phases ≤ 3 := by cases s <;> decide
    calc (2 : ℝ) * 2 * 2 ^ ((s.phases + s.phases) + (s.phases + s.phases)) ≤ 2 * 2 * 2 ^ 12 :=
          mul_le_mul_of_nonneg_left (pow_le_pow_right₀ (by norm_num) (by omega)) (by norm_num)
      _ ≤ 2 ^ 52 := by norm_num

/-- An iteration on a grid with one bus that does not change the voltages. -/
theorem one_bus_still {N : SeNet s} (hN : N.Valid) (h1 : N.T.nBus = 1) {M : Measured s} (hinj : M.injection 0 = none) {mem : Memory s}
    (hold : mem.sys.gain.length = N.S.colIndicesLu.length) (hlen : mem.perms.length = N.T.nBus) {st : State s} (hphi : st.phi = fun _ => 0)
    {E : QM s} (hE : ∀ i, ∑ j, |E i j| ≤ 1 / 2) (hmain : ∀ d : Nat → QV s, mainTerm N M st.x d 0 = -(d 0 + E.mulVec (d 0))) (ha : HasAngle N.T.nBus M) :
    ∃ st' dev, step N M false mem st = .ok (st', dev) ∧ st'.x 0 = st.x 0 := by
  have h := prepared hN M st mem.sys hold
  have h0 : 0 < N.T.nBus := by omega
  generalize hx : prepare N M st mem.sys = x at h
  have one : ∀ f : Nat → QV s, ∑ c ∈ Finset.range N.T.nBus, f c = f 0 := fun f => by rw [h1, Finset.sum_range_one]
  have hg : ∀ v, (blockAt N.S x 0 0).g.mulVec v = v + E.mulVec v := by
    intro v
    have e := main_linear hN h h0 0 (fun _ => v)
    rw [one, hmain, hmain] at e
    simp only [Pi.add_apply, Pi.zero_apply, mulVec_zero, zero_add, add_zero, neg_zero, zero_sub, neg_inj] at e
    exact e.symm
  have hq : (blockAt N.S x 0 0).q = 0 := by
    apply Matrix.ext_of_mulVec_single
    intro i
    have e := h.q hN h0 (fun _ => Pi.single i 1)
    rw [one] at e
    rw [e, zero_mulVec]
    unfold measuredSlope
    rw [hinj]
  have hqt : (blockAt N.S x 0 0).qt = 0 := by rw [h.transposed hN h0 h0, hq, transpose_zero]
  have hr : (blockAt N.S x 0 0).r = -1 := by
    apply Matrix.ext_of_mulVec_single
    intro i
    have e := h.rblock hN h0 (fun _ => Pi.single i 1)
    rw [one] at e
    rw [e]
    congr 1
    unfold rBlock rDiag
    rw [hinj]
    have d1 : (diagonal fun _ : Fin s.phases => (-1 : ℝ)) = -1 := by rw [← diagonal_one, diagonal_neg]
    rw [d1, ← fromBlocks_one, fromBlocks_neg, neg_zero]
  have hblk : (blockAt N.S x 0 0).toBlk = Block.toBlk ⟨(blockAt N.S x 0 0).g, 0, 0, -1⟩ := by
    have : blockAt N.S x 0 0 = ⟨(blockAt N.S x 0 0).g, (blockAt N.S x 0 0).qt, (blockAt N.S x 0 0).q, (blockAt N.S x 0 0).r⟩ := rfl
    conv_lhs => rw [this, hq, hqt, hr]
  have hv := structure_valid hN.topo hN.fill hN.structure_
  obtain ⟨f, hf⟩ := block_accepted hv _ _ mem.perms (gain_holds hN h.len) hlen fun k hk B hB flag => by
    have hk0 : k = 0 := by omega
    subst hk0
    have hB' : B = (blockAt N.S x 0 0).toBlk := by
      apply Matrix.ext_of_mulVec_single
      intro i
      have := hB (fun _ => Pi.single i 1) (fun r hr => absurd hr (by omega))
      rw [Finset.sum_range_one, matrixOf_eq hN] at this
      exact this.symm
    rw [hB', hblk]
    exact near_one_accepted hg hE flag
  have hflag : f.perturbed = false := prefactorize_flag hv _ _ mem.perms (gain_holds hN h.len).zero (gain_holds hN h.len).rep hlen f hf
  have hb : (rhsList N.T.nBus x).length = N.T.nBus := by simp [rhsList]
  obtain ⟨_, ⟨y, hy, _⟩, _⟩ := solve_unperturbed hv false _ _ mem.perms (gain_holds hN h.len) hlen f hf (Or.inr rfl) _ _ hb hb
  have hs : solve N false mem.perms x = .ok fun b => ofVec (y[b]?.getD 0) := by
    unfold solve factorizeAndSolve
    rw [hf]
    simp only [bind, Except.bind]
    rw [hflag]
    simp only [Bool.false_eq_true, if_false]
    rw [hy]
  obtain ⟨_, hun⟩ := solve_spec hN h.len hlen (Or.inl rfl) hs
  have hz := hun (fun _ => ⟨0, 0⟩) (by
    intro r hr
    have hr0 : r = 0 := by omega
    subst hr0
    rw [one, one, h.eta hN h0 0, h.tau hN h0 0, one, one, one, hmain, hphi]
    unfold injPart
    rw [hinj]
    simp) 0 h0
  unfold step
  rw [hx, hs]
  refine ⟨_, _, rfl, ?_⟩
  show (⟨_, _⟩ : Polar s) = _
  unfold angleOffset
  rw [if_pos ((hasAngle_iff _ M).mpr ha)]
  show (⟨fun p => (st.x 0).theta p + ((ofVec (y[0]?.getD 0)).polar.theta p - 0), fun p => (st.x 0).v p + (ofVec (y[0]?.getD 0)).polar.v p⟩ : Polar s) = _
  rw [← hz]
  simp [Rhs.polar]

/-- A grid. -/
noncomputable def oneNet (T : Topo) (P : Param (CM s)) (S : YBus.Structure) : SeNet s where
  T := T
  S := S
  y := updateAdmittance S ⟨[], P, fun _ => [], fun _ => []⟩ P
  slack := 0
  radial := true

theorem oneNet_param (T : Topo) (P : Param (CM s)) (S : YBus.Structure) : (oneNet T P S).y.param = P := (coherent_updateAdmittance S _ P).2

theorem oneNet_valid {T : Topo} (hT : T.Valid) (h1 : T.nBus = 1) (P : Param (CM s)) {S : YBus.Structure} (hS : build T = some S) :
    (oneNet T P S).Valid where
  topo := hT
  fill := fun i j k hi _ hk _ _ _ => by
    have : i < T.nBus := hi
    omega
  structure_ := hS
  coherent := (coherent_updateAdmittance S _ P).1
  slack := by show 0 < T.nBus; omega

deriving instance DecidableEq for YBus.Structure

/-- The structure of a grid with one bus and one element. -/
def oneStructure (e : Elem) : YBus.Structure := ⟨[0, 1], [0], [e], [0, 1], [0], [0, 1], [0], [0], [some 0], [0]⟩

/-- A bus whose voltage is measured to be one with angle zero. -/
noncomputable def unitVoltage (b : Nat) : Option (VoltM s) := if b = 0 then some ⟨.phasor fun _ => 1, 1⟩ else none

/-- Voltages of one with angles of zero. -/
def unit (_ : Nat) : Polar s := ⟨fun _ => 0, fun _ => 1⟩

theorem unit_phasor (b : Nat) : phasor (unit b : Polar s) = fun _ => 1 := by
  funext p
  simp [PGM.NewtonPf.phasor, unit]

theorem one_mainTerm (T : Topo) (P : Param (CM s)) (e : Elem) {M : Measured s} (hM : M.voltage = unitVoltage) (d : Nat → QV s) :
    mainTerm (oneNet T P (oneStructure e)) M unit d 0 = -(d 0) + elemTerm P M unit d 0 0 e := by
  have h1 : mainTerm (oneNet T P (oneStructure e)) M unit d 0 =
      voltageTerm (oneNet T P (oneStructure e)) M unit d 0 + elemTerm (oneNet T P (oneStructure e)).y.param M unit d 0 0 e + 0 := by
    unfold mainTerm startTerm elemsTerm
    show ([0].map fun k : Nat => _).sum = _
    simp [oneNet, oneStructure, colOf, elementsOf]
  rw [h1, oneNet_param, add_zero]
  congr 1
  unfold voltageTerm
  rw [hM]
  funext i
  rcases i with i | i
  · simp [unitVoltage, angleTarget, angleWeight, angleError, unit, mulVec_diagonal]
  · simp [unitVoltage, magnitudeOf, unit, mulVec_diagonal]

/-! ## A sensor that is not used -/

/-- One bus and a branch that ends there. -/
def halfTopo : Topo := ⟨1, [(some 0, none)], [], []⟩

theorem halfTopo_valid : halfTopo.Valid where
  nonempty := by decide
  branchRange := by simp [halfTopo]
  shuntRange := by simp [halfTopo]
  fillRange := by simp [halfTopo]
  fillOff := by simp [halfTopo]
  fillNew := by simp [halfTopo]
  fillOnce := by simp [halfTopo]
  covered := Or.inr fun r hr => by
    have : r < 1 := hr
    have : r = 0 := by omega
    subst this
    exact Or.inl ⟨_, List.mem_singleton.mpr rfl, Or.inl rfl⟩

theorem halfTopo_build : build halfTopo = some (oneStructure ⟨.ff, 0⟩) := by decide +kernel

/-- The branch takes the current that equals the voltage. -/
noncomputable def halfParam : Param (CM .sym) := ⟨fun _ => 1, fun _ => 0, fun _ => 0, fun _ => 0, fun _ => 0⟩

/-- The voltage is measured to be one, the power of the branch to be five. -/
noncomputable def halfM : Measured .sym where
  voltage := unitVoltage
  injection _ := none
  shunt _ := none
  branchPower side k := if side = 0 ∧ k = 0 then some ⟨fun _ => 5, fun _ => 1, fun _ => 1⟩ else none
  branchCurrent _ _ := none

/-- The first direction: the magnitude grows by one. -/
def halfDir (_ : Nat) : Polar .sym := ⟨fun _ => 0, fun _ => 1⟩

/-- No change. -/
def noChange (_ : Nat) : Polar s := ⟨fun _ => 0, fun _ => 0⟩

/-- The power of the branch. -/
noncomputable def halfPower (x : Nat → Polar .sym) : ℂ :=
  flowPower x (some 0) (currentInto halfParam ((some 0, none), 0) 0 (phasors x)) (0 : Fin 1)

theorem half_readings : readings halfTopo halfParam 0 halfM =
    [⟨fun x => (x 0).v (0 : Fin 1), ‖(1 : ℂ)‖, 1⟩, ⟨fun x => (x 0).theta (0 : Fin 1), Complex.arg 1, 1⟩,
      ⟨fun x => (halfPower x).re, (5 : ℂ).re, 1⟩, ⟨fun x => (halfPower x).im, (5 : ℂ).im, 1⟩] := by
  rfl

theorem halfPower_dir (t : ℝ) : halfPower (move unit halfDir t) = ((1 + t) ^ 2 : ℝ) := by
  have h1 : phasors (move unit halfDir t) 0 = StateEst.one ((1 + t : ℝ) : ℂ) := by
    funext p
    simp [phasors, move, unit, halfDir, StateEst.one]
  have h2 : halfPower (move unit halfDir t) = phasors (move unit halfDir t) 0 (0 : Fin 1) *
      star (((1 : CM .sym).mulVec (phasors (move unit halfDir t) 0) + (0 : CM .sym).mulVec 0) (0 : Fin 1)) := rfl
  rw [h2, one_mulVec, zero_mulVec, add_zero, h1]
  show ((1 + t : ℝ) : ℂ) * star ((1 + t : ℝ) : ℂ) = _
  rw [Complex.star_def, Complex.conj_ofReal]
  push_cast
  ring

/-- **C55, why it is only proved in part: sensors of branches that are connected at one side only.** The voltage is measured to be one with variance one
and the power of a branch with admittance one to be five with variance one. From the voltage of one, where this power is one, an iteration does not
change anything, although the least squares estimate is larger. -/
theorem half_open_sensor_not_used : ∃ (N : SeNet .sym) (M : Measured .sym) (mem : Memory .sym) (st' : State .sym) (dev : ℝ),
    N.Valid ∧ Variances M ∧ HasAngle N.T.nBus M ∧ NonZero N.T.nBus (unit : Nat → Polar .sym) ∧ step N M false mem ⟨unit, fun _ => 0⟩ = .ok (st', dev) ∧
      st'.x 0 = unit 0 ∧ ¬ IsGaussNewtonStep N.T.nBus (readings N.T N.y.param N.slack M) unit noChange := by
  have hN : (oneNet halfTopo halfParam (oneStructure ⟨.ff, 0⟩)).Valid := oneNet_valid halfTopo_valid rfl halfParam halfTopo_build
  let mem : Memory .sym := ⟨⟨[.zero], fun _ => ⟨0, 0⟩⟩, [⟨1, 1⟩]⟩
  have ha : HasAngle (oneNet halfTopo halfParam (oneStructure ⟨.ff, 0⟩)).T.nBus halfM := ⟨0, by show 0 < 1; omega, _, _, rfl⟩
  obtain ⟨st', dev, h1, h2⟩ := one_bus_still hN rfl (M := halfM) rfl (mem := mem) rfl rfl (st := ⟨unit, fun _ => 0⟩) rfl (E := 0) (by simp) (fun d => by
    rw [one_mainTerm halfTopo halfParam ⟨.ff, 0⟩ (M := halfM) rfl d]
    show -d 0 + 0 = _
    simp) ha
  refine ⟨_, halfM, mem, st', dev, hN, ?_, ha, fun _ _ _ => one_ne_zero, h1, h2, ?_⟩
  · constructor
    · intro b m h
      simp only [halfM, unitVoltage] at h
      split_ifs at h
      injection h with h
      rw [← h]
      exact one_pos
    · intro b m h; cases h
    · intro k m h; cases h
    · intro side k m h q
      simp only [halfM] at h
      split_ifs at h
      injection h with h
      rw [← h]
      exact ⟨one_pos, one_pos⟩
    · intro side k m h; cases h
  · rw [oneNet_param]
    show ¬ IsGaussNewtonStep 1 (readings halfTopo halfParam 0 halfM) unit noChange
    rw [half_readings]
    rintro ⟨_, h⟩
    have hc := (h halfDir (by
      intro R hR hv
      simp only [List.mem_cons, List.not_mem_nil, or_false] at hR
      rcases hR with rfl | rfl | rfl | rfl <;> exact absurd hv one_ne_zero)).1
    have h0 : halfPower unit = 1 := by
      have := halfPower_dir 0
      have e : move unit halfDir 0 = unit := by
        funext b
        simp [move, unit, halfDir]
      rw [e] at this
      rw [this]
      norm_num
    have s1 : Reading.slope (s := .sym) ⟨fun x => (halfPower x).re, (5 : ℂ).re, 1⟩ unit halfDir = 2 := by
      unfold Reading.slope
      simp only [halfPower_dir, Complex.ofReal_re]
      have : HasDerivAt (fun t : ℝ => (1 + t) ^ 2) (2 * (1 + 0) ^ 1 * 1) 0 := by
        exact (((hasDerivAt_id (0 : ℝ)).const_add 1).pow 2).congr_deriv (by simp)
      rw [this.deriv]
      norm_num
    have s2 : Reading.slope (s := .sym) ⟨fun x => (halfPower x).im, (5 : ℂ).im, 1⟩ unit halfDir = 0 := by
      unfold Reading.slope
      simp only [halfPower_dir, Complex.ofReal_im, deriv_const]
    have s3 : Reading.slope (s := .sym) ⟨fun x => (x 0).v (0 : Fin 1), ‖(1 : ℂ)‖, 1⟩ unit halfDir = 1 := slope_v (s := .sym) 0 (0 : Fin 1) _ _ _ _
    have s4 : Reading.slope (s := .sym) ⟨fun x => (x 0).theta (0 : Fin 1), Complex.arg 1, 1⟩ unit halfDir = 0 := slope_theta (s := .sym) 0 (0 : Fin 1) _ _ _ _
    have z : ∀ R : Reading .sym, R.slope unit noChange = 0 := fun R => slope_zero R unit
    simp only [linearCost, Reading.misfit, List.map_cons, List.map_nil, List.sum_cons, List.sum_nil, s1, s2, s3, s4, z, h0, one_ne_zero, if_false] at hc
    simp [unit] at hc
    norm_num at hc

/-! ## Coupled phases -/

/-- One bus with a shunt. -/
def shuntTopo : Topo := ⟨1, [], [0], []⟩

theorem shuntTopo_valid : shuntTopo.Valid where
  nonempty := by decide
  branchRange := by simp [shuntTopo]
  shuntRange := by simp [shuntTopo]
  fillRange := by simp [shuntTopo]
  fillOff := by simp [shuntTopo]
  fillNew := by simp [shuntTopo]
  fillOnce := by simp [shuntTopo]
  covered := Or.inr fun r hr => by
    have : r < 1 := hr
    have : r = 0 := by omega
    subst this
    exact Or.inr (List.mem_singleton.mpr rfl)

theorem shuntTopo_build : build shuntTopo = some (oneStructure ⟨.shunt, 0⟩) := by decide +kernel

/-- Admittances between the phases. -/
noncomputable def offDiag : Matrix (Fin 3) (Fin 3) ℝ := !![0, 1 / 16, 1 / 16; 1 / 16, 0, 1 / 16; 1 / 16, 1 / 16, 0]

/-- The derivatives of the reactive powers with respect to the angles. -/
noncomputable def slopeL : Matrix (Fin 3) (Fin 3) ℝ := !![1 / 8, -1 / 16, -1 / 16; -1 / 16, 1 / 8, -1 / 16; -1 / 16, -1 / 16, 1 / 8]

/-- The derivatives of the active powers with respect to the magnitudes. -/
noncomputable def slopeK : Matrix (Fin 3) (Fin 3) ℝ := !![1 / 8, 1 / 16, 1 / 16; 1 / 16, 1 / 8, 1 / 16; 1 / 16, 1 / 16, 1 / 8]

/-- The weights of the reactive powers. -/
noncomputable def weightQ : Fin 3 → ℝ := ![1, 1 / 2, 1 / 2]

theorem rowsL (p : Fin 3) : ∑ q, |(diagonal weightQ * slopeL * slopeL) p q| ≤ 1 / 2 := by
  fin_cases p <;> simp [Matrix.mul_apply, Fin.sum_univ_three, weightQ, slopeL, diagonal_mul] <;> norm_num [abs_le, abs_of_nonneg, abs_of_nonpos]

theorem rowsK (p : Fin 3) : ∑ q, |(slopeK * slopeK) p q| ≤ 1 / 2 := by
  fin_cases p <;> simp [Matrix.mul_apply, Fin.sum_univ_three, slopeK] <;> norm_num [abs_le, abs_of_nonneg, abs_of_nonpos]

theorem slopeL_one : slopeL.mulVec (fun _ => 1) = 0 := by
  funext p
  fin_cases p <;> simp [Matrix.mulVec, dotProduct, Fin.sum_univ_three, slopeL] <;> norm_num

/-- The shunt. -/
noncomputable def shuntParam : Param (CM .asym) :=
  ⟨fun _ => 0, fun _ => 0, fun _ => 0, fun _ => 0, fun _ => (Matrix.of fun p q => ((-offDiag p q : ℝ) : ℂ) : Matrix (Fin 3) (Fin 3) ℂ)⟩

/-- The measured power of the shunt: the reactive power is one too large. -/
noncomputable def shuntPower : PowerM .asym := ⟨fun _ => 1 / 8 + Complex.I, fun _ => 1, (![1, 2, 2] : Fin 3 → ℝ)⟩

/-- The voltage is measured to be one. -/
noncomputable def shuntM : Measured .asym where
  voltage := unitVoltage
  injection _ := none
  shunt k := if k = 0 then some shuntPower else none
  branchPower _ _ := none
  branchCurrent _ _ := none

theorem shunt_hm : hmForm (-(shuntParam.shunt 0)) (phasor (unit 0)) (phasor (unit 0)) = (Matrix.of fun p q => ((offDiag p q : ℝ) : ℂ) : Matrix (Fin 3) (Fin 3) ℂ) := by
  ext p q
  simp only [hmForm, unit_phasor]
  show star (-(((-offDiag p q : ℝ)) : ℂ)) * (1 * star 1) = ((offDiag p q : ℝ) : ℂ)
  simp

theorem shunt_flow : shuntFlow (shuntParam.shunt 0) (unit 0) =
    ((fromBlocks 0 slopeK slopeL 0 : Matrix (Fin 3 ⊕ Fin 3) (Fin 3 ⊕ Fin 3) ℝ), (fun _ => (1 / 8 : ℂ))) := by
  unfold shuntFlow
  simp only [shunt_hm]
  have hs : scaleCols (s := .asym) (Matrix.of fun p q => ((offDiag p q : ℝ) : ℂ) : Matrix (Fin 3) (Fin 3) ℂ) (unit 0).v =
      (Matrix.of fun p q => ((offDiag p q : ℝ) : ℂ) : Matrix (Fin 3) (Fin 3) ℂ) := by
    ext p q
    simp [scaleCols, unit]
  have hf : sumRow (s := .asym) (Matrix.of fun p q => ((offDiag p q : ℝ) : ℂ) : Matrix (Fin 3) (Fin 3) ℂ) = fun _ => (1 / 8 : ℂ) := by
    funext p
    have : ∑ q : Fin 3, ((offDiag p q : ℝ) : ℂ) = 1 / 8 := by
      rw [Fin.sum_univ_three]
      revert p
      show ∀ p : Fin 3, _
      intro p
      fin_cases p <;> simp [offDiag] <;> norm_num
    exact this
  rw [hs, hf]
  congr 1
  unfold jacobian diagonalPart
  rw [fromBlocks_add]
  have him : imM (s := .asym) (Matrix.of fun p q => ((offDiag p q : ℝ) : ℂ) : Matrix (Fin 3) (Fin 3) ℂ) = 0 := by
    ext p q
    exact Complex.ofReal_im _
  have hre : reM (s := .asym) (Matrix.of fun p q => ((offDiag p q : ℝ) : ℂ) : Matrix (Fin 3) (Fin 3) ℂ) = offDiag := by
    ext p q
    exact Complex.ofReal_re _
  rw [him, hre]
  have hr : (1 / 8 : ℂ).re = 1 / 8 := by norm_num
  have hi : (1 / 8 : ℂ).im = 0 := by norm_num
  have e1 : offDiag + diagonal (fun _ : Fin 3 => (1 / 8 : ℂ).re) = slopeK := by
    ext p q
    rw [hr]
    fin_cases p <;> fin_cases q <;> simp [offDiag, slopeK]
  have e2 : -offDiag + diagonal (fun _ : Fin 3 => (1 / 8 : ℂ).re) = slopeL := by
    ext p q
    rw [hr]
    fin_cases p <;> fin_cases q <;> simp [offDiag, slopeL] <;> norm_num
  have e3 : (0 : Matrix (Fin 3) (Fin 3) ℝ) + diagonal (fun _ : Fin 3 => -(1 / 8 : ℂ).im) = 0 := by
    rw [hi]
    simp
  have e4 : (0 : Matrix (Fin 3) (Fin 3) ℝ) + diagonal (fun _ : Fin 3 => (1 / 8 : ℂ).im) = 0 := by
    rw [hi]
    simp
  exact congr (congr (congr (congrArg fromBlocks e3) e1) e2) e4

/-- The normal equations that the solver uses. -/
noncomputable def shuntE : Matrix (Fin 3 ⊕ Fin 3) (Fin 3 ⊕ Fin 3) ℝ := fromBlocks (diagonal weightQ * slopeL * slopeL) 0 0 (slopeK * slopeK)

theorem shuntE_rows (i : Fin 3 ⊕ Fin 3) : ∑ j, |shuntE i j| ≤ 1 / 2 := by
  rw [Fintype.sum_sum_type]
  rcases i with i | i
  · simpa [shuntE] using rowsL i
  · simpa [shuntE] using rowsK i

theorem shunt_term (d : Nat → QV .asym) : elemTerm shuntParam shuntM unit d 0 0 ⟨.shunt, 0⟩ = -(shuntE.mulVec (d 0)) := by
  have h : elemTerm shuntParam shuntM unit d 0 0 ⟨.shunt, 0⟩ = (timesWeight (shuntFlow (shuntParam.shunt 0) (unit 0)).1 shuntPower).mulVec
      (parts (shuntPower.value - (shuntFlow (shuntParam.shunt 0) (unit 0)).2) - (shuntFlow (shuntParam.shunt 0) (unit 0)).1.mulVec (d 0)) := rfl
  have hw : timesWeight (s := .asym) (fromBlocks 0 slopeK slopeL 0 : Matrix (Fin 3 ⊕ Fin 3) (Fin 3 ⊕ Fin 3) ℝ) shuntPower =
      (fromBlocks 0 (diagonal weightQ * slopeL) slopeK 0 : Matrix (Fin 3 ⊕ Fin 3) (Fin 3 ⊕ Fin 3) ℝ) := by
    have hq : (fun p => 1 / shuntPower.vq p) = weightQ := by
      funext p
      show 1 / (![1, 2, 2] : Fin 3 → ℝ) p = weightQ p
      revert p
      show ∀ p : Fin 3, _
      intro p
      fin_cases p <;> simp [weightQ]
    have hp : (fun p => 1 / shuntPower.vp p) = fun _ : Fin 3 => (1 : ℝ) := by
      funext p
      show (1 : ℝ) / 1 = 1
      norm_num
    show fromBlocks _ _ _ _ = _
    rw [hp, hq]
    have b1 : (fromBlocks 0 slopeK slopeL 0 : Matrix (Fin 3 ⊕ Fin 3) (Fin 3 ⊕ Fin 3) ℝ).toBlocks₁₁ = 0 := toBlocks_fromBlocks₁₁ _ _ _ _
    have b2 : (fromBlocks 0 slopeK slopeL 0 : Matrix (Fin 3 ⊕ Fin 3) (Fin 3 ⊕ Fin 3) ℝ).toBlocks₁₂ = slopeK := toBlocks_fromBlocks₁₂ _ _ _ _
    have b3 : (fromBlocks 0 slopeK slopeL 0 : Matrix (Fin 3 ⊕ Fin 3) (Fin 3 ⊕ Fin 3) ℝ).toBlocks₂₁ = slopeL := toBlocks_fromBlocks₂₁ _ _ _ _
    have b4 : (fromBlocks 0 slopeK slopeL 0 : Matrix (Fin 3 ⊕ Fin 3) (Fin 3 ⊕ Fin 3) ℝ).toBlocks₂₂ = 0 := toBlocks_fromBlocks₂₂ _ _ _ _
    have c1 : (diagonal fun _ : Fin 3 => (1 : ℝ)) * (0 : Matrix (Fin 3) (Fin 3) ℝ) = 0 := by simp
    have c2 : (diagonal fun _ : Fin 3 => (1 : ℝ)) * slopeK = slopeK := by simp
    have c3 : diagonal weightQ * (0 : Matrix (Fin 3) (Fin 3) ℝ) = 0 := by simp
    show (fromBlocks ((diagonal fun _ : Fin 3 => (1 : ℝ)) * (fromBlocks 0 slopeK slopeL 0).toBlocks₁₁) (diagonal weightQ * (fromBlocks 0 slopeK slopeL 0).toBlocks₂₁)
      ((diagonal fun _ : Fin 3 => (1 : ℝ)) * (fromBlocks 0 slopeK slopeL 0).toBlocks₁₂) (diagonal weightQ * (fromBlocks 0 slopeK slopeL 0).toBlocks₂₂) :
        Matrix (Fin 3 ⊕ Fin 3) (Fin 3 ⊕ Fin 3) ℝ) = _
    rw [b1, b2, b3, b4, c1, c2, c3]
  have hparts : parts (s := .asym) (shuntPower.value - fun _ => (1 / 8 : ℂ)) = (Sum.elim 0 (fun _ => 1) : Fin 3 ⊕ Fin 3 → ℝ) := by
    funext i
    rcases i with i | i
    · show ((1 / 8 + Complex.I : ℂ) - 1 / 8).re = 0
      simp
    · show ((1 / 8 + Complex.I : ℂ) - 1 / 8).im = 1
      simp
  rw [h, shunt_flow]
  dsimp only
  rw [hw, hparts]
  have hmul : ∀ v : Fin 3 ⊕ Fin 3 → ℝ, (fromBlocks 0 (diagonal weightQ * slopeL) slopeK 0 : Matrix (Fin 3 ⊕ Fin 3) (Fin 3 ⊕ Fin 3) ℝ).mulVec
      ((Sum.elim 0 (fun _ => 1) : Fin 3 ⊕ Fin 3 → ℝ) - (fromBlocks 0 slopeK slopeL 0 : Matrix (Fin 3 ⊕ Fin 3) (Fin 3 ⊕ Fin 3) ℝ).mulVec v) = -(shuntE.mulVec v) := by
    intro v
    rw [mulVec_sub, mulVec_mulVec, fromBlocks_multiply, fromBlocks_mulVec]
    have e : (diagonal weightQ * slopeL).mulVec (fun _ => 1) = 0 := by rw [← mulVec_mulVec, slopeL_one, mulVec_zero]
    have z1 : ((Sum.elim 0 (fun _ => 1) : Fin 3 ⊕ Fin 3 → ℝ) ∘ Sum.inl) = 0 := rfl
    have z2 : ((Sum.elim 0 (fun _ => 1) : Fin 3 ⊕ Fin 3 → ℝ) ∘ Sum.inr) = fun _ => 1 := rfl
    rw [z1, z2, e]
    simp [shuntE]
  exact hmul (d 0)

/-- The angle of phase a grows. -/
noncomputable def shuntDir (_ : Nat) : Polar .asym := ⟨(![1 / 16, 0, 0] : Fin 3 → ℝ), fun _ => 0⟩

/-- The power of the shunt. -/
noncomputable def shuntS (p : Fin 3) (x : Nat → Polar .asym) : ℂ := flowPower x (some 0) (-(shuntParam.shunt 0).mulVec (phasors x 0)) p

theorem shunt_readings : readings shuntTopo shuntParam 0 shuntM =
    [⟨fun x => (x 0).v (0 : Fin 3), ‖(1 : ℂ)‖, 1⟩, ⟨fun x => (x 0).v (1 : Fin 3), ‖(1 : ℂ)‖, 1⟩, ⟨fun x => (x 0).v (2 : Fin 3), ‖(1 : ℂ)‖, 1⟩,
      ⟨fun x => (x 0).theta (0 : Fin 3), Complex.arg 1, 1⟩, ⟨fun x => (x 0).theta (1 : Fin 3), Complex.arg 1, 1⟩,
      ⟨fun x => (x 0).theta (2 : Fin 3), Complex.arg 1, 1⟩,
      ⟨fun x => (shuntS 0 x).re, (1 / 8 + Complex.I : ℂ).re, 1⟩, ⟨fun x => (shuntS 0 x).im, (1 / 8 + Complex.I : ℂ).im, 1⟩,
      ⟨fun x => (shuntS 1 x).re, (1 / 8 + Complex.I : ℂ).re, 1⟩, ⟨fun x => (shuntS 1 x).im, (1 / 8 + Complex.I : ℂ).im, 2⟩,
      ⟨fun x => (shuntS 2 x).re, (1 / 8 + Complex.I : ℂ).re, 1⟩, ⟨fun x => (shuntS 2 x).im, (1 / 8 + Complex.I : ℂ).im, 2⟩] := by
  rfl

theorem shuntS_dir (t : ℝ) :
    shuntS 0 (move unit shuntDir t) = 1 / 8 * Complex.exp (((t / 16 : ℝ) : ℂ) * Complex.I) ∧
    shuntS 1 (move unit shuntDir t) = 1 / 16 * (Complex.exp (((-(t / 16) : ℝ) : ℂ) * Complex.I) + 1) ∧
    shuntS 2 (move unit shuntDir t) = 1 / 16 * (Complex.exp (((-(t / 16) : ℝ) : ℂ) * Complex.I) + 1) := by
  have h0 : phasors (move unit shuntDir t) 0 (0 : Fin 3) = Complex.exp (((t / 16 : ℝ) : ℂ) * Complex.I) := by
    simp [phasors, move, unit, shuntDir]
    ring_nf
  have h1 : phasors (move unit shuntDir t) 0 (1 : Fin 3) = 1 := by
    simp [phasors, move, unit, shuntDir]
  have h2 : phasors (move unit shuntDir t) 0 (2 : Fin 3) = 1 := by
    simp [phasors, move, unit, shuntDir]
  have hS : ∀ p : Fin 3, shuntS p (move unit shuntDir t) = phasors (move unit shuntDir t) 0 p *
      star (-(∑ q : Fin 3, ((-offDiag p q : ℝ) : ℂ) * phasors (move unit shuntDir t) 0 q)) := fun p => rfl
  have hc : star (Complex.exp (((t / 16 : ℝ) : ℂ) * Complex.I)) = Complex.exp (((-(t / 16) : ℝ) : ℂ) * Complex.I) := by
    rw [Complex.star_def, ← Complex.exp_conj, map_mul, Complex.conj_ofReal, Complex.conj_I, Complex.ofReal_neg]
    ring_nf
  refine ⟨?_, ?_, ?_⟩
  · rw [hS, Fin.sum_univ_three, h0, h1, h2]
    simp [offDiag]
    ring
  · rw [hS, Fin.sum_univ_three, h0, h1, h2, ← hc]
    simp [offDiag]
    ring
  · rw [hS, Fin.sum_univ_three, h0, h1, h2, ← hc]
    simp [offDiag]
    ring

theorem shuntS_slopes (a b : ℝ) :
    Reading.slope (s := .asym) ⟨fun x => (shuntS 0 x).re, a, b⟩ unit shuntDir = 0 ∧
    Reading.slope (s := .asym) ⟨fun x => (shuntS 0 x).im, a, b⟩ unit shuntDir = 1 / 128 ∧
    Reading.slope (s := .asym) ⟨fun x => (shuntS 1 x).re, a, b⟩ unit shuntDir = 0 ∧
    Reading.slope (s := .asym) ⟨fun x => (shuntS 1 x).im, a, b⟩ unit shuntDir = -1 / 256 ∧
    Reading.slope (s := .asym) ⟨fun x => (shuntS 2 x).re, a, b⟩ unit shuntDir = 0 ∧
    Reading.slope (s := .asym) ⟨fun x => (shuntS 2 x).im, a, b⟩ unit shuntDir = -1 / 256 := by
  have e8 : ∀ z : ℂ, (1 / 8 * z).re = 1 / 8 * z.re ∧ (1 / 8 * z).im = 1 / 8 * z.im := fun z => by
    have : (1 / 8 : ℂ) = ((1 / 8 : ℝ) : ℂ) := by push_cast; rfl
    rw [this, Complex.re_ofReal_mul, Complex.im_ofReal_mul]
    exact ⟨rfl, rfl⟩
  have e16 : ∀ z : ℂ, (1 / 16 * z).re = 1 / 16 * z.re ∧ (1 / 16 * z).im = 1 / 16 * z.im := fun z => by
    have : (1 / 16 : ℂ) = ((1 / 16 : ℝ) : ℂ) := by push_cast; rfl
    rw [this, Complex.re_ofReal_mul, Complex.im_ofReal_mul]
    exact ⟨rfl, rfl⟩
  have lin : HasDerivAt (fun t : ℝ => t / 16) (1 / 16) 0 := (hasDerivAt_id (0 : ℝ)).div_const 16
  have nlin : HasDerivAt (fun t : ℝ => -(t / 16)) (-(1 / 16)) 0 := lin.neg
  have c0 : HasDerivAt (fun t : ℝ => 1 / 8 * Real.cos (t / 16)) 0 0 := (lin.cos.const_mul (1 / 8)).congr_deriv (by simp)
  have s0 : HasDerivAt (fun t : ℝ => 1 / 8 * Real.sin (t / 16)) (1 / 128) 0 := (lin.sin.const_mul (1 / 8)).congr_deriv (by simp; norm_num)
  have c1 : HasDerivAt (fun t : ℝ => 1 / 16 * (Real.cos (-(t / 16)) + 1)) 0 0 := ((nlin.cos.add_const 1).const_mul (1 / 16)).congr_deriv (by simp)
  have s1 : HasDerivAt (fun t : ℝ => 1 / 16 * (Real.sin (-(t / 16)) + 0)) (-1 / 256) 0 :=
    ((nlin.sin.add_const 0).const_mul (1 / 16)).congr_deriv (by simp; norm_num)
  refine ⟨?_, ?_, ?_, ?_, ?_, ?_⟩ <;> unfold Reading.slope <;> dsimp only
  · simp only [(shuntS_dir _).1, (e8 _).1, Complex.exp_ofReal_mul_I_re]
    exact c0.deriv
  · simp only [(shuntS_dir _).1, (e8 _).2, Complex.exp_ofReal_mul_I_im]
    exact s0.deriv
  · simp only [(shuntS_dir _).2.1, (e16 _).1, Complex.add_re, Complex.exp_ofReal_mul_I_re, Complex.one_re]
    exact c1.deriv
  · simp only [(shuntS_dir _).2.1, (e16 _).2, Complex.add_im, Complex.exp_ofReal_mul_I_im, Complex.one_im]
    exact s1.deriv
  · simp only [(shuntS_dir _).2.2, (e16 _).1, Complex.add_re, Complex.exp_ofReal_mul_I_re, Complex.one_re]
    exact c1.deriv
  · simp only [(shuntS_dir _).2.2, (e16 _).2, Complex.add_im, Complex.exp_ofReal_mul_I_im, Complex.one_im]
    exact s1.deriv

/-- **C55, why it is only proved in part: coupled phases.** A shunt connects the phases of a bus with each other. The voltages are measured to be one with
variance one, and the reactive powers of the shunt, with different variances, to be one larger than these voltages would have. An iteration does not change
anything, because the solver multiplies the deviations with derivatives that it has not transposed, and these cancel out; it is not the least squares
estimate. -/
theorem coupled_phases_not_optimal : ∃ (N : SeNet .asym) (M : Measured .asym) (mem : Memory .asym) (st' : State .asym) (dev : ℝ),
    N.Valid ∧ Variances M ∧ MeasuredClosed N.T M ∧ HasAngle N.T.nBus M ∧ step N M false mem ⟨unit, fun _ => 0⟩ = .ok (st', dev) ∧
      st'.x 0 = unit 0 ∧ ¬ IsGaussNewtonStep N.T.nBus (readings N.T N.y.param N.slack M) unit noChange := by
  have hN : (oneNet shuntTopo shuntParam (oneStructure ⟨.shunt, 0⟩)).Valid := oneNet_valid shuntTopo_valid rfl shuntParam shuntTopo_build
  let mem : Memory .asym := ⟨⟨[.zero], fun _ => ⟨0, 0⟩⟩, [⟨1, 1⟩]⟩
  have ha : HasAngle (oneNet shuntTopo shuntParam (oneStructure ⟨.shunt, 0⟩)).T.nBus shuntM := ⟨0, by show 0 < 1; omega, _, _, rfl⟩
  obtain ⟨st', dev, h1, h2⟩ := one_bus_still hN rfl (M := shuntM) rfl (mem := mem) rfl rfl (st := ⟨unit, fun _ => 0⟩) rfl (E := shuntE) shuntE_rows (fun d => by
    rw [one_mainTerm shuntTopo shuntParam ⟨.shunt, 0⟩ (M := shuntM) rfl d, shunt_term, neg_add]
    rfl) ha
  refine ⟨_, shuntM, mem, st', dev, hN, ?_, ?_, ha, h1, h2, ?_⟩
  · constructor
    · intro b m h
      simp only [shuntM, unitVoltage] at h
      split_ifs at h
      injection h with h
      rw [← h]
      exact one_pos
    · intro b m h; cases h
    · intro k m h q
      simp only [shuntM] at h
      split_ifs at h
      injection h with h
      rw [← h]
      refine ⟨one_pos, ?_⟩
      show 0 < (![1, 2, 2] : Fin 3 → ℝ) q
      revert q
      show ∀ q : Fin 3, _
      intro q
      fin_cases q <;> simp
    · intro side k m h; cases h
    · intro side k m h; cases h
  · intro b hb
    exact absurd hb List.not_mem_nil
  · rw [oneNet_param]
    show ¬ IsGaussNewtonStep 1 (readings shuntTopo shuntParam 0 shuntM) unit noChange
    rw [shunt_readings]
    rintro ⟨_, h⟩
    have hc := (h shuntDir (by
      intro R hR hv
      simp only [List.mem_cons, List.not_mem_nil, or_false] at hR
      rcases hR with rfl | rfl | rfl | rfl | rfl | rfl | rfl | rfl | rfl | rfl | rfl | rfl <;> norm_num at hv)).1
    have e : move unit shuntDir 0 = unit := by
      funext b
      simp [move, unit]
    have p0 : shuntS 0 unit = 1 / 8 := by
      have := (shuntS_dir 0).1
      rw [e] at this
      simpa using this
    have p1 : shuntS 1 unit = 1 / 8 := by
      have := (shuntS_dir 0).2.1
      rw [e] at this
      rw [this]
      simp
      norm_num
    have p2 : shuntS 2 unit = 1 / 8 := by
      have := (shuntS_dir 0).2.2
      rw [e] at this
      rw [this]
      simp
      norm_num
    have sv : ∀ (p : Fin 3) (a : ℝ), Reading.slope (s := .asym) ⟨fun x => (x 0).v p, a, 1⟩ unit shuntDir = 0 := fun p a => slope_v (s := .asym) 0 p a 1 unit shuntDir
    have st : ∀ (p : Fin 3) (a : ℝ), Reading.slope (s := .asym) ⟨fun x => (x 0).theta p, a, 1⟩ unit shuntDir = (![1 / 16, 0, 0] : Fin 3 → ℝ) p :=
      fun p a => slope_theta (s := .asym) 0 p a 1 unit shuntDir
    have z : ∀ R : Reading .asym, R.slope unit noChange = 0 := fun R => slope_zero R unit
    have w : (2 : ℝ) ≠ 0 := two_ne_zero
    simp only [linearCost, Reading.misfit, List.map_cons, List.map_nil, List.sum_cons, List.sum_nil, (shuntS_slopes _ _).1, (shuntS_slopes _ _).2.1,
      (shuntS_slopes _ _).2.2.1, (shuntS_slopes _ _).2.2.2.1, (shuntS_slopes _ _).2.2.2.2.1, (shuntS_slopes _ _).2.2.2.2.2, sv, st, z, p0, p1, p2,
      one_ne_zero, w, if_false] at hc
    simp [unit] at hc
    norm_num at hc

end PGM.NewtonSe
