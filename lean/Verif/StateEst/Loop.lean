import Verif.StateEst.Examples

/-!
# C52: a branch that connects a bus to itself is counted twice

`construct_reduced_topology` of `P/supernodes.hpp` maps the two ends of a branch that is parallel to a closed link to the same bus. In
`prepare_rhs`, `P/math_solver/iterative_linear_se_solver.hpp` lines 332-333, the elements of the diagonal entry are taken to be "either ff or tt", but
those of such a branch are all four, and the measured value is added for each of them.
-/

namespace PGM.StateEst

open PGM.YBus PGM.Lu PGM.PowerFlow Matrix

/-- One bus, and a branch from it to itself. -/
def loopTopo : Topo := ⟨1, [(some 0, some 0)], [], []⟩

theorem loopTopo_valid : loopTopo.Valid where
  nonempty := by decide
  branchRange := by simp [loopTopo]
  shuntRange := by simp [loopTopo]
  fillRange := by simp [loopTopo]
  fillOff := by simp [loopTopo]
  fillNew := by simp [loopTopo]
  fillOnce := by simp [loopTopo]
  covered := by
    right
    intro r hr
    have : r = 0 := by simp [loopTopo] at hr; omega
    subst this
    simp [loopTopo]

/-- A line with a series admittance and a shunt admittance of one. -/
noncomputable def loopParam : Param (CM .sym) where
  ff _ := fun _ _ => 2
  ft _ := fun _ _ => -1
  tf _ := fun _ _ => -1
  tt _ := fun _ _ => 2
  shunt _ := 0

noncomputable def loopNet (S : YBus.Structure) : SeNet .sym where
  T := loopTopo
  S := S
  y := updateAdmittance S ⟨[], loopParam, fun _ => [], fun _ => []⟩ loopParam
  slack := 0
  radial := true

/-- The voltage phasor and the power of the branch, both one. -/
noncomputable def loopMeasured : Measured .sym where
  voltage b := if b = 0 then some ⟨.phasor (one 1), 1⟩ else none
  injection _ := none
  shunt _ := none
  branchPower side k := if side = 0 ∧ k = 0 then some (power 1) else none
  branchCurrent _ _ := none

theorem loopNet_valid {S : YBus.Structure} (hS : build loopTopo = some S) : (loopNet S).Valid where
  topo := loopTopo_valid
  fill := by
    intro i j k hi hj hk hk' _ _
    have hi' : i < 1 := hi
    have hj' : j < 1 := hj
    exact Or.inl (Or.inl (by omega))
  structure_ := hS
  coherent := (coherent_updateAdmittance S _ loopParam).1
  slack := by show 0 < 1; omega

theorem loopNet_param (S : YBus.Structure) : (loopNet S).y.param = loopParam := (coherent_updateAdmittance S _ loopParam).2

theorem loopMeasured_valid : loopMeasured.Valid where
  voltage b m h := by
    simp only [loopMeasured] at h
    split_ifs at h
    injection h with h
    rw [← h]
    exact one_pos
  injection b m h := by cases h
  shunt k m h := by cases h
  power side k m h p := by
    simp only [loopMeasured] at h
    split_ifs at h
    injection h with h
    rw [← h, power_var]
    exact one_pos
  current side k m h := by cases h

theorem loopFrom (u : Nat → CV .sym) : fromCurrent loopParam ((some 0, some 0), 0) u = u 0 := by
  unfold fromCurrent
  show (loopParam.ff 0).mulVec (u 0) + (loopParam.ft 0).mulVec (u 0) = u 0
  rw [cv_one (u 0), mulVec_one, mulVec_one]
  funext p
  show (2 : ℂ) * u 0 (0 : Fin 1) + -1 * u 0 (0 : Fin 1) = u 0 (0 : Fin 1)
  ring

/-- The measurements come from the voltage one. -/
theorem loopExact : Exact loopTopo loopParam loopMeasured fun _ => one 1 where
  phasor b v var h := by
    simp only [loopMeasured] at h
    split_ifs at h with hb
    injection h with h
    injection h with h1 h2
    injection h1 with h1
    exact h1.symm
  magnitude b v var h := by
    simp only [loopMeasured] at h
    split_ifs at h
    injection h with h
    injection h with h1 h2
    cases h1
  injection b m _ h := by cases h
  shunt x hx := by simp [loopTopo] at hx
  fromPower b hb m h p := by
    simp only [loopTopo, List.zipIdx_singleton, List.mem_singleton] at hb
    subst hb
    simp only [loopMeasured] at h
    rw [if_pos (by decide)] at h
    injection h with h
    rw [loopFrom, ← h]
    refine ⟨?_, ?_⟩
    · show (1 : ℂ) ≠ 0
      norm_num
    · show (1 : ℂ) = 1 * star 1
      simp
  toPower b hb m h := by
    simp only [loopMeasured] at h
    split_ifs at h with h1
    exact absurd h1.1 (by decide)
  fromCurrent b hb m h := by cases h
  toCurrent b hb m h := by cases h

theorem loopFactors {S : YBus.Structure} (hS : build loopTopo = some S) (old : List (Gain .sym)) (hold : old.length = S.colIndicesLu.length)
    (perms : List (BlockPerm (Symm.sym.phases + Symm.sym.phases))) (hlen : perms.length = 1) :
    ∃ f, prefactorize (luPattern S) false (gainData (loopNet S) loopMeasured old) perms = .ok f := by
  have hN := loopNet_valid hS
  have hA := gain_holds hN loopMeasured old hold
  rw [loopNet_param] at hA
  refine block_accepted (structure_valid hN.topo hN.fill hN.structure_) _ _ perms hA hlen ?_
  intro k hk B hB flag
  have : k = 0 := by
    have : k < 1 := hk
    omega
  subst this
  have hg : gAt loopTopo loopParam loopMeasured 0 0 (0 : Fin 1) (0 : Fin 1) = 2 := by
    have h := oneSensor loopParam loopMeasured 1 rfl rfl (fun _ => rfl)
    have e : nodal loopTopo (gainParam loopParam loopMeasured) 0 0 = branchGain loopParam loopMeasured 0 0 0 + branchGain loopParam loopMeasured 0 1 0 +
        branchGain loopParam loopMeasured 1 0 0 + branchGain loopParam loopMeasured 1 1 0 := by
      simp [nodal, loopTopo, branchTerm, gainParam]
    unfold gAt gainVoltage
    rw [e, if_pos rfl]
    show (diagonal fun _ => ((1 / (1 : ℝ) : ℝ) : ℂ)) (0 : Fin 1) (0 : Fin 1) + (branchGain loopParam loopMeasured 0 0 0 (0 : Fin 1) (0 : Fin 1) +
      branchGain loopParam loopMeasured 0 1 0 (0 : Fin 1) (0 : Fin 1) + branchGain loopParam loopMeasured 1 0 0 (0 : Fin 1) (0 : Fin 1) +
      branchGain loopParam loopMeasured 1 1 0 (0 : Fin 1) (0 : Fin 1)) = 2
    rw [h, h, h, h, Matrix.diagonal_apply_eq]
    show ((1 / (1 : ℝ) : ℝ) : ℂ) + (star 2 * 2 + star 2 * -1 + star (-1) * 2 + star (-1) * -1) = 2
    have : star (2 : ℂ) = 2 := by exact Complex.conj_ofNat 2
    rw [this]
    norm_num
  have z0 : (0 : CM .sym) (0 : Fin 1) (0 : Fin 1) = 0 := rfl
  have zh : ((0 : CM .sym).conjTranspose) (0 : Fin 1) (0 : Fin 1) = 0 := star_zero _
  refine two_accepted B (a := 2) (b := 0) (c := 0) (d := -1) (fun x y => ?_) ?_ ?_ ?_ ?_ ?_ flag
  · have := hB (fun _ => ![x, y]) (fun r hr => absurd hr (by omega))
    rw [Finset.sum_range_one] at this
    exact this.symm.trans (toBlk_vals (blockAt loopTopo loopParam loopMeasured 0 0) hg zh z0 (Matrix.diagonal_apply_eq (n := Fin 1) _ _) x y)
  all_goals norm_num

theorem loopAssumed (u : Nat → CV .sym) : assumed loopMeasured u 0 = one 1 := by
  unfold assumed
  rfl

/-- The sum of squares that the estimation minimises: the measured current is taken to be two. -/
theorem loopCost (v u : Nat → CV .sym) (hv : v 0 = one 1) :
    cost (solvedTerms loopTopo loopParam loopMeasured v) u = ‖u 0 (0 : Fin 1) - 1‖ ^ 2 + ‖u 0 (0 : Fin 1) - 2‖ ^ 2 := by
  have e : solvedTerms loopTopo loopParam loopMeasured v =
      [⟨fun u => u 0, v 0, fun _ => 1⟩,
       Term.scaled 2 ⟨fromCurrent loopParam ((some 0, some 0), 0), asCurrent (power 1) (v 0), (power 1).vp + (power 1).vq⟩] := by
    unfold solvedTerms solvedMain voltageTerms shuntTerms injectionTerms oneBranch
    simp [loopTopo, loopMeasured, multiplicity, sideVoltage, List.range_succ]
  rw [e]
  unfold cost
  rw [List.map_cons, List.map_cons, List.map_nil, List.sum_cons, List.sum_cons, List.sum_nil, add_zero]
  congr 1
  · show (∑ p : Fin 1, if (1 : ℝ) = 0 then (0 : ℝ) else ‖u 0 p - v 0 p‖ ^ 2 / 1) = _
    rw [Fin.sum_univ_one, if_neg one_ne_zero, hv, div_one]
    rfl
  · show (∑ p : Fin 1, if ((1 / 2 : ℝ) + 1 / 2) = 0 then (0 : ℝ) else
      ‖fromCurrent loopParam ((some 0, some 0), 0) u p - ((2 : ℝ) : ℂ) * star ((1 : ℂ) / v 0 p)‖ ^ 2 / (1 / 2 + 1 / 2)) = _
    rw [Fin.sum_univ_one, if_neg (by norm_num), hv, loopFrom]
    show ‖u 0 (0 : Fin 1) - ((2 : ℝ) : ℂ) * star ((1 : ℂ) / 1)‖ ^ 2 / (1 / 2 + 1 / 2) = _
    norm_num

/-- Its minimum is not the exact voltage. -/
theorem loopEstimate (v w : Nat → CV .sym) (hv : v 0 = one 1) (hw : IsEstimate 1 (solvedTerms loopTopo loopParam loopMeasured v) w) :
    w 0 = one (3 / 2) := by
  have hfeas : Feasible (solvedTerms loopTopo loopParam loopMeasured v) fun _ => one (3 / 2) := by
    intro t ht p h0
    exfalso
    unfold solvedTerms solvedMain voltageTerms shuntTerms injectionTerms oneBranch at ht
    simp only [loopTopo, loopMeasured, multiplicity, sideVoltage, List.range_succ, List.range_zero] at ht
    simp at ht
    rcases ht with rfl | rfl
    · exact one_ne_zero h0
    · have : (1 / 2 : ℝ) + 1 / 2 = 0 := h0
      norm_num at this
  have h1 := (hw.2 _ hfeas).1
  rw [loopCost v _ hv, loopCost v _ hv] at h1
  have h2 : ‖(3 / 2 : ℂ) - 1‖ ^ 2 + ‖(3 / 2 : ℂ) - 2‖ ^ 2 = 1 / 2 := by norm_num
  have h3 : ‖w 0 (0 : Fin 1) - 1‖ ^ 2 + ‖w 0 (0 : Fin 1) - 2‖ ^ 2 ≤ 1 / 2 := h1.trans_eq h2
  rw [cv_one (w 0)]
  congr 1
  generalize w 0 (0 : Fin 1) = z at h3 ⊢
  rw [← Complex.normSq_eq_norm_sq, ← Complex.normSq_eq_norm_sq, Complex.normSq_apply, Complex.normSq_apply] at h3
  simp only [Complex.sub_re, Complex.sub_im, Complex.one_re, Complex.one_im, Complex.re_ofNat, Complex.im_ofNat] at h3
  apply Complex.ext
  · norm_num
    nlinarith [sq_nonneg (z.re - 3 / 2), sq_nonneg z.im]
  · norm_num
    nlinarith [sq_nonneg (z.re - 3 / 2), sq_nonneg z.im]

/-- **The iterative linear estimation is wrong for branches with both ends on one bus.** The measurements are exact and determine the voltage, which is
one. Whatever the start and the tolerance, the estimation returns one and a half. -/
theorem loop_counted_twice : ∃ (N : SeNet .sym) (M : Measured .sym) (u : Nat → CV .sym), N.Valid ∧ M.Valid ∧ HasAngle N.T.nBus M ∧ Linear N.T M ∧
    Exact N.T N.y.param M u ∧ u 0 = one 1 ∧ ∀ old perms, old.length = N.S.colIndicesLu.length → perms.length = N.T.nBus →
    ∃ f, prefactorize (luPattern N.S) false (gainData N M old) perms = .ok f ∧ ∀ (tol : ℝ) (maxIter : Nat) (start : Nat → CV .sym), 0 ≤ tol →
      ∃ u', seLoop N M f (gainData N M old) tol (maxIter + 2) start = .ok u' ∧ u' 0 = one (3 / 2) := by
  obtain ⟨S, hS, _⟩ := structure_correct loopTopo_valid
  have hN := loopNet_valid hS
  have hA : HasAngle 1 loopMeasured := ⟨0, by omega, one 1, 1, rfl⟩
  have hP : PhasorAt loopMeasured 0 := ⟨one 1, 1, rfl⟩
  refine ⟨loopNet S, loopMeasured, fun _ => one 1, hN, loopMeasured_valid, hA, ?_, ?_, rfl, ?_⟩
  · refine ⟨fun b m h => ?_, fun b m _ h => (by cases h), fun x hx m h => (by cases h), fun b hb _ r hr => ?_, fun b hb _ r hr => ?_⟩
    · simp only [loopMeasured] at h
      split_ifs at h with hb
      subst hb
      exact hP
    all_goals
      have hb' : b ∈ [((some 0, some 0), 0)] := hb
      rw [List.mem_singleton] at hb'
      subst hb'
      injection hr with hr
      subst hr
      exact hP
  · rw [loopNet_param]
    exact loopExact
  · intro old perms hold hlen
    obtain ⟨f, hf⟩ := loopFactors hS old hold perms hlen
    refine ⟨f, hf, fun tol maxIter start htol => ?_⟩
    have step : ∀ u, ∃ u', seIteration (loopNet S) loopMeasured f (gainData (loopNet S) loopMeasured old) u = .ok (u', deviation 1 u u') ∧
        u' 0 = one (3 / 2) := by
      intro u
      obtain ⟨w, u', h1, h2, h3⟩ := iteration_general hN loopMeasured_valid hold hlen hf (Or.inr rfl) u
      refine ⟨u', h2, ?_⟩
      rw [h3 (Or.inl hA) 0 (by show 0 < 1; omega)]
      unfold reported
      rw [if_pos (show HasAngle (loopNet S).T.nBus loopMeasured from hA)]
      rw [loopNet_param] at h1
      exact loopEstimate _ w (loopAssumed u) h1
    obtain ⟨u1, h1, e1⟩ := step start
    unfold seLoop
    rw [h1]
    simp only
    split_ifs with hd
    · obtain ⟨u2, h2, e2⟩ := step u1
      unfold seLoop
      rw [h2]
      simp only
      rw [if_neg]
      · exact ⟨u2, rfl, e2⟩
      · rw [gt_iff_lt, not_lt, deviation_le _ _ _ htol]
        intro b hb p
        have : b = 0 := by omega
        subst this
        rw [e1, e2, sub_self, norm_zero]
        exact htol
    · exact ⟨u1, rfl, e1⟩

end PGM.StateEst
