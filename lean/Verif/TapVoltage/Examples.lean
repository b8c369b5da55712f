import Verif.TapVoltage.Props

/-!
# A concrete grid for C61

Nodes 1 and 2 of 1000 V, connected by transformer 10 and by the three-winding transformer 11 (sides at 1, 2 and 2). 1 per unit flows through the transformer, nothing through the three-winding
transformer. The regulators control node 2.
-/

namespace PGM.TapVoltage

open PGM.Container PGM.Input PGM.Update PGM.Topology PGM.PowerFlow PGM.Output PGM.TapOpt

/-- An element of the example. -/
def exEl (id n1 n2 n3 : Int) : Elem Unit := ⟨id, (), n1, n2, n3, 0, 0, 0, fun _ => .ok ()⟩

/-- The input of the example. -/
def exD : CompType → List (Elem Unit)
  | .node => [exEl 1 0 0 0, exEl 2 0 0 0]
  | .transformer => [exEl 10 1 2 0]
  | .threeWindingTransformer => [exEl 11 1 2 2]
  | _ => []

/-- The places of the example. -/
def exO : Objects where
  node := fun s => if s = 0 then some (0, 0) else if s = 1 then some (0, 1) else none
  branch := fun s => if s = 0 then some (0, 0) else none
  branch3 := fun s => if s = 0 then some (0, ![1, 2, 3]) else none
  source := fun _ => none
  shunt := fun _ => none
  loadGen := fun _ => none

/-- A result for the example, the same in all phases. -/
noncomputable def exSol (σ : Symm) : List (Sol σ) :=
  [{ u := [fun _ => 1, fun _ => 1]
     busInjection := [fun _ => 1, fun _ => -1]
     branch := [⟨fun _ => 1, fun _ => -1, fun _ => 1, fun _ => -1⟩, ⟨0, 0, 0, 0⟩, ⟨0, 0, 0, 0⟩, ⟨0, 0, 0, 0⟩]
     source := []
     shunt := []
     loadGen := [] }]

/-- The data of the example. -/
noncomputable def exA : Attr where
  uRated := fun _ => 1000
  on := fun _ => true
  power := fun _ => .sym 0 0
  voltage := fun _ => .sym 0 none
  current := fun _ => .sym 0 0
  localAngle := fun _ => true

/-- The regulator: 700 V with a band of 10 V, and a compensation of 0.3 ohm that is set by the second update. -/
noncomputable def exReg : RegInput := ⟨1000, 10, none, none⟩

/-- Its updates. -/
noncomputable def exUps : List RegUpdate := [⟨some 700, none, none, none⟩, ⟨none, none, some (3 / 10), none⟩]

theorem ex_reg : setPoint exReg exUps = 700 ∧ bandWidth exReg exUps = 10 ∧ dropR exReg exUps = 3 / 10 ∧ dropX exReg exUps = 0 := by
  simp [setPoint, bandWidth, dropR, dropX, exReg, exUps]

theorem ex_build : ∃ c, build exD = .ok c := by
  have : (match build exD with | .ok _ => true | .error _ => false) = true := by decide +kernel
  cases h : build exD with
  | ok c => exact ⟨c, rfl⟩
  | error e => rw [h] at this; cases this

theorem ex_fits (σ : Symm) : Fits exO (exSol σ) where
  node := by
    intro s m h
    simp only [exO] at h
    split_ifs at h <;> cases h <;> simp [exSol]
  branch := by
    intro s m h
    simp only [exO] at h
    split_ifs at h <;> cases h <;> simp [exSol]
  branch3 := by
    intro s m h
    simp only [exO] at h
    split_ifs at h <;> cases h
    refine ⟨_, rfl, ?_⟩
    intro j
    fin_cases j <;> simp
  source := by intro s m h; cases h
  shunt := by intro s m h; cases h
  loadGen := by intro s m h; cases h

/-- The node of the example. -/
theorem ex_node {c : Container (Comp Unit)} (h : build exD = .ok c) (σ : Symm) :
    ∃ rn : NodeOut σ, (nodeRecords exA c exO (exSol σ))[1]? = some (some rn) ∧ rn.energized = true ∧ ∀ j, phaseVoltage σ rn.u j = 1000 / √3 := by
  obtain ⟨r, h1, h2, h3⟩ := (node_records h exA exO (exSol σ) (ex_fits σ)).2 1 (exEl 2 0 0 0) rfl
  rcases h3 with ⟨h3, _⟩ | ⟨m, x, u, h3, h4, h5, h6, h7⟩
  · simp [exO] at h3
  · simp only [exO, one_ne_zero, if_false, if_true, Option.some.injEq] at h3
    subst h3
    simp only [exSol, List.getElem?_cons_zero, Option.some.injEq] at h4
    subst h4
    simp only [List.getElem?_cons_succ, List.getElem?_cons_zero, Option.some.injEq] at h5
    subst h5
    refine ⟨r, h1, h6, ?_⟩
    intro j
    have := (h7 j).2.2
    cases σ <;> simp only [phaseVoltage, this] <;> simp [exA]

/-- The transformer of the example. -/
theorem ex_trafo {c : Container (Comp Unit)} (h : build exD = .ok c) (σ : Symm) :
    ∃ rt : Output.BranchOut σ, (branchRecords .transformer exA c exO (exSol σ))[0]? = some (some rt) ∧ rt.energized = true ∧
      ∀ j, phasePower σ (sideP rt 1) (sideQ rt 1) j = -(1000000 / 3) := by
  have hpos : position exD .transformer 0 = 0 := by decide
  obtain ⟨r, h1, h2, h3⟩ := (branch_records h exA exO (exSol σ) (ex_fits σ) .transformer (by simp [branchTypes])).2 0 (exEl 10 1 2 0) rfl
  rw [hpos] at h3
  rcases h3 with ⟨h3, _⟩ | ⟨m, x, u, h3, h4, h5, h6, h7⟩
  · simp [exO] at h3
  · simp only [exO, if_true, Option.some.injEq] at h3
    subst h3
    simp only [exSol, List.getElem?_cons_zero, Option.some.injEq] at h4
    subst h4
    simp only [List.getElem?_cons_zero, Option.some.injEq] at h5
    subst h5
    refine ⟨r, h1, h6, ?_⟩
    intro j
    have hp := (h7 j).2.2.1
    have hq := (h7 j).2.2.2.1
    cases σ <;> simp only [phasePower, sideP, sideQ, one_ne_zero, if_false, hp, hq] <;> simp [basePower] <;> norm_num

/-- The three-winding transformer of the example. -/
theorem ex_trafo3 {c : Container (Comp Unit)} (h : build exD = .ok c) (σ : Symm) :
    ∃ rt : Branch3Out σ, (branch3Records exA c exO (exSol σ))[0]? = some (some rt) ∧ rt.energized = true := by
  obtain ⟨r, h1, h2, h3⟩ := (branch3_records h exA exO (exSol σ) (ex_fits σ)).2 0 (exEl 11 1 2 2) rfl
  rcases h3 with ⟨h3, _⟩ | ⟨m, x, u, h3, h4, h5, h6, h7⟩
  · simp [exO] at h3
  · exact ⟨r, h1, h6⟩

/-- The situation of the theorems occurs: a regulator at the to side of the transformer. -/
theorem ex_case (σ : Symm) : ∃ c rn rt, Case2 (σ := σ) exD c exA exO (exSol σ) 0 1 (exEl 10 1 2 0) (exEl 2 0 0 0) 1 rn rt ∧
    (∀ j, phaseVoltage σ rn.u j = 1000 / √3) ∧ ∀ j, phasePower σ (sideP rt 1) (sideQ rt 1) j = -(1000000 / 3) := by
  obtain ⟨c, h⟩ := ex_build
  obtain ⟨rn, n1, n2, n3⟩ := ex_node h σ
  obtain ⟨rt, t1, t2, t3⟩ := ex_trafo h σ
  have h3 := sqrt3_pos
  have hpos : position exD .transformer 0 = 0 := by decide
  refine ⟨c, rn, rt, ⟨h, ex_fits σ, rfl, rfl, .inr rfl, rfl, n1, t1, n2, t2, ?_, by simp [exA], ?_⟩, n3, t3⟩
  · rw [hpos]
    intro m m' u b h1 h2 h3 h4
    simp only [exO, one_ne_zero, if_false, if_true, Option.some.injEq] at h1 h2
    subst h1; subst h2
    simp [at2, exSol] at h3 h4
    subst h3; subst h4
    simp [IsPower]
  · intro j h0
    have := n3 j
    cases σ
    · simp only [phaseVoltage, h0] at this
      have : (0 : ℝ) < 1000 / √3 := by positivity
      simp_all
    · simp only [phaseVoltage, h0] at this
      have : (0 : ℝ) < 1000 / √3 := by positivity
      simp_all

/-- The situation occurs for the second side of a three-winding transformer. -/
example (σ : Symm) : ∃ c rn rt, Case3 (σ := σ) exD c exA exO (exSol σ) 0 1 (exEl 11 1 2 2) (exEl 2 0 0 0) 1 rn rt := by
  obtain ⟨c, rn, rt, H, _⟩ := ex_case σ
  obtain ⟨rt3, t1, t2⟩ := ex_trafo3 H.built σ
  refine ⟨c, rn, rt3, ⟨H.built, H.fits, rfl, rfl, rfl, H.nodeRecord, t1, H.nodeOn, t2, ?_, H.rated, H.voltage⟩⟩
  intro m m' u b h1 h2 h3 h4
  simp only [exO, one_ne_zero, if_false, if_true, Option.some.injEq] at h1 h2
  subst h1; subst h2
  simp [at2, exSol] at h3 h4
  subst h3; subst h4
  simp [IsPower]

/-- The controlled voltage of the example: 1000 V minus 1000 V for every ohm. -/
theorem ex_control {σ : Symm} {u p q : RV σ ℝ} (hu : ∀ j, phaseVoltage σ u j = 1000 / √3) (hs : ∀ j, phasePower σ p q j = -(1000000 / 3)) (r : ℝ) (hr : r ≤ 1) :
    IsControlVoltage σ u p q r 0 (1000 * (1 - r)) := by
  have h3 := sqrt3_pos
  have h33 : ((√3 : ℝ) : ℂ) * ((√3 : ℝ) : ℂ) = 3 := by rw [← Complex.ofReal_mul, Real.mul_self_sqrt (by norm_num)]; norm_num
  have h3c : ((√3 : ℝ) : ℂ) ≠ 0 := by exact_mod_cast h3.ne'
  refine ⟨fun _ => (-(1000 / √3) : ℝ), ?_, ?_⟩
  · intro j
    rw [hu, hs, Complex.star_def, Complex.conj_ofReal]
    push_cast
    field_simp
    linear_combination (1000000 : ℂ) * h33
  · have : ∀ j : Fin σ.phases, ‖((phaseVoltage σ u j : ℝ) : ℂ) + ((r : ℂ) + ((0 : ℝ) : ℂ) * Complex.I) * ((-(1000 / √3) : ℝ) : ℂ)‖ = 1000 / √3 * (1 - r) := by
      intro j
      rw [hu]
      have : ((1000 / √3 : ℝ) : ℂ) + ((r : ℂ) + ((0 : ℝ) : ℂ) * Complex.I) * ((-(1000 / √3) : ℝ) : ℂ) = ((1000 / √3 * (1 - r) : ℝ) : ℂ) := by
        push_cast; ring
      rw [this, Complex.norm_real, Real.norm_of_nonneg]
      have : 0 ≤ 1 - r := by linarith
      positivity
    simp only [this, Finset.sum_const, Finset.card_univ, Fintype.card_fin, nsmul_eq_mul]
    cases σ <;> simp only [Symm.phases] <;> push_cast <;> field_simp

/-- In the symmetric calculation the compensated voltage of the example, 700 V, is in the band. -/
example : ∃ c, build exD = .ok c ∧ compare2 exA c exO (exSol .sym) (exEl 10 1 2 0) 1 exReg exUps = some .eq := by
  obtain ⟨c, rn, rt, H, hu, hs⟩ := ex_case .sym
  obtain ⟨e1, e2, e3, e4⟩ := ex_reg
  obtain ⟨cmp, v, h1, h2, h3⟩ := control_symmetric H exReg exUps (by rw [e2]; norm_num)
  refine ⟨c, H.built, ?_⟩
  rw [e3, e4] at h2
  have h0 : ∀ j, phaseVoltage .sym rn.u j ≠ 0 := fun j => by rw [hu]; have := sqrt3_pos; positivity
  have hv := control_unique h0 h2 (ex_control hu hs (3 / 10) (by norm_num))
  rw [e1, e2, hv] at h3
  cases cmp <;> simp only [Verdict] at h3 <;> first | exact h1 | (exfalso; norm_num at h3)

/-- C61 is violated by line drop compensation in asymmetric calculations: the controlled voltage of the example is 700 V in the sense of the documentation, in the middle of the band from 695 V to 705 V, but
the code finds it too high. It compensates with a third of the impedance only, `z_base` being that of one phase with the voltage between lines. -/
theorem control_asymmetric_wrong : ∃ c rn rt, Case2 (σ := .asym) exD c exA exO (exSol .asym) 0 1 (exEl 10 1 2 0) (exEl 2 0 0 0) 1 rn rt ∧
    setPoint exReg exUps = 700 ∧ bandWidth exReg exUps = 10 ∧
    (∀ v, IsControlVoltage .asym rn.u (sideP rt 1) (sideQ rt 1) (dropR exReg exUps) (dropX exReg exUps) v ↔ v = 700) ∧
    compare2 exA c exO (exSol .asym) (exEl 10 1 2 0) 1 exReg exUps = some .gt := by
  obtain ⟨c, rn, rt, H, hu, hs⟩ := ex_case .asym
  obtain ⟨e1, e2, e3, e4⟩ := ex_reg
  have h0 : ∀ j, phaseVoltage .asym rn.u j ≠ 0 := fun j => by rw [hu]; have := sqrt3_pos; positivity
  have h700 := ex_control hu hs (3 / 10) (by norm_num)
  refine ⟨c, rn, rt, H, e1, e2, ?_, ?_⟩
  · intro v
    rw [e3, e4]
    constructor
    · intro h
      rw [control_unique h0 h h700]
      norm_num
    · rintro rfl
      have e : (700 : ℝ) = 1000 * (1 - 3 / 10) := by norm_num
      rw [e]
      exact h700
  · obtain ⟨cmp, v, h1, h2, h3⟩ := control_asymmetric_third H exReg exUps (by rw [e2]; norm_num)
    rw [e3, e4, zero_div] at h2
    have hv := control_unique h0 h2 (ex_control hu hs (3 / 10 / 3) (by norm_num))
    rw [e1, e2, hv] at h3
    cases cmp <;> simp only [Verdict] at h3 <;> first | exact h1 | (exfalso; norm_num at h3)

end PGM.TapVoltage
