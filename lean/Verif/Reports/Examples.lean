import Verif.Reports.ScProps
import Verif.Output.Examples

/-!
# A concrete grid for C62

The grid of `Verif/Output/Examples.lean` with fault 40 at node 2, and results of a steady-state and a short-circuit calculation. The rated voltages make 1 per unit of current 1 A. Line 10 is switched off, line
11 is loaded with 1 A.
-/

namespace PGM.Reports

open PGM.Container PGM.Input PGM.Update PGM.Topology PGM.PowerFlow PGM.Output

/-- The input of the example. -/
def repD : CompType → List (Elem Unit)
  | .fault => [exEl 40 0 0 0 2 0]
  | t => exD t

/-- A steady-state result. -/
noncomputable def repSol (σ : Symm) : List (Sol σ) :=
  [{ u := [fun _ => 1, fun _ => Complex.I]
     busInjection := [fun _ => 1, fun _ => -1]
     branch := [⟨fun _ => 1, fun _ => -1, fun _ => 1, fun _ => -1⟩, ⟨fun _ => 3, 0, fun _ => 3, 0⟩, ⟨fun _ => -1, 0, fun _ => -1, 0⟩, ⟨fun _ => -2, 0, fun _ => -2, 0⟩]
     source := [⟨fun _ => 1, fun _ => 1⟩]
     shunt := [⟨0, 0⟩]
     loadGen := [⟨fun _ => -1, fun _ => -1⟩] }]

/-- A short-circuit result. -/
noncomputable def repSc (σ : Symm) : List (ScSol σ) :=
  [{ u := [fun _ => 1, fun _ => Complex.I]
     fault := [fun _ => 2]
     branch := [⟨fun _ => 1, fun _ => -1⟩, ⟨fun _ => 3, 0⟩, ⟨fun _ => -1, 0⟩, ⟨fun _ => -2, 0⟩]
     source := [fun _ => 4]
     shunt := [fun _ => -1] }]

/-- The place of the fault. -/
def repFault (s : Nat) : Option (Nat × Nat) := if s = 0 then some (0, 0) else none

theorem rep_build : ∃ c, build repD = .ok c := by
  have : (match build repD with | .ok _ => true | .error _ => false) = true := by decide +kernel
  cases h : build repD with
  | ok c => exact ⟨c, rfl⟩
  | error e => rw [h] at this; cases this

theorem rep_fits (σ : Symm) : Fits exO (repSol σ) where
  node := by
    intro s m h
    simp only [exO] at h
    split_ifs at h <;> cases h <;> simp [repSol]
  branch := by
    intro s m h
    simp only [exO] at h
    split_ifs at h <;> cases h <;> simp [repSol]
  branch3 := by
    intro s m h
    simp only [exO] at h
    split_ifs at h <;> cases h
    refine ⟨_, rfl, ?_⟩
    intro j
    fin_cases j <;> simp
  source := by
    intro s m h
    simp only [exO] at h
    split_ifs at h <;> cases h <;> simp [repSol]
  shunt := by
    intro s m h
    simp only [exO] at h
    split_ifs at h <;> cases h <;> simp [repSol]
  loadGen := by
    intro s m h
    simp only [exO] at h
    split_ifs at h <;> cases h <;> simp [repSol]

theorem rep_sc_fits (σ : Symm) : ScFits exO repFault (repSc σ) where
  node := by
    intro s m h
    simp only [exO] at h
    split_ifs at h <;> cases h <;> simp [repSc]
  branch := by
    intro s m h
    simp only [exO] at h
    split_ifs at h <;> cases h <;> simp [repSc]
  branch3 := by
    intro s m h
    simp only [exO] at h
    split_ifs at h <;> cases h
    refine ⟨_, rfl, ?_⟩
    intro j
    fin_cases j <;> simp
  source := by
    intro s m h
    simp only [exO] at h
    split_ifs at h <;> cases h <;> simp [repSc]
  shunt := by
    intro s m h
    simp only [exO] at h
    split_ifs at h <;> cases h <;> simp [repSc]
  fault := by
    intro s m h
    simp only [repFault] at h
    split_ifs at h <;> cases h <;> simp [repSc]

theorem rep_rated (i : Int) : 0 < exA.uRated i := by
  have : (0 : ℝ) < √3 := Real.sqrt_pos.mpr (by norm_num)
  simp only [exA]
  positivity

/-- Line 11, rated 100 A. -/
example (σ : Symm) (c : Container (Comp Unit)) (h : build repD = .ok c) :
    ∃ r x, (branchRecords .line exA c exO (repSol σ))[1]? = some (some r) ∧ (branchMores .line exA (fun _ => some 100) c exO (repSol σ))[1]? = some (some x) ∧
      (r.energized = true → HasLoading r x.sFrom x.sTo .line (some 100) x.loading) := by
  obtain ⟨r, x, h1, h2, _, h3, _⟩ := branch_reports h exA (fun _ => some 100) exO (repSol σ) (rep_fits σ) .line (by simp [branchTypes]) 1 (exEl 11 1 2 0 0 0) rfl (by simp)
  exact ⟨r, x, h1, h2, h3⟩

/-- Its loading is one percent. -/
theorem rep_loading (x : BranchSol .sym) (hx : x = ⟨fun _ => 1, fun _ => -1, fun _ => 1, fun _ => -1⟩) :
    (branchMore exA (fun _ => some 100) (⟨.line, exEl 11 1 2 0 0 0⟩ : Comp Unit) x).loading = some (1 / 100) := by
  have h3 : (0 : ℝ) < √3 := Real.sqrt_pos.mpr (by norm_num)
  subst hx
  simp only [branchMore, loadingOf, maxVal, Output.branchOutput, exA, ratedTo, baseCurrent, Option.map_some, Option.some.injEq, norm_one, norm_neg, mul_one, max_self]
  field_simp

/-- The three-winding transformer 12 with sides of 10, 5 and 4 MVA. -/
example (σ : Symm) (c : Container (Comp Unit)) (h : build repD = .ok c) :
    ∃ r x, (branch3Records exA c exO (repSol σ))[0]? = some (some r) ∧ (branch3Mores (fun _ => ![10000000, 5000000, 4000000]) c exO (repSol σ))[0]? = some (some x) ∧
      ∀ l j, x.s l j = √(r.p l j ^ 2 + r.q l j ^ 2) := by
  obtain ⟨r, x, h1, h2, h3, _⟩ := branch3_reports h exA (fun _ => ![10000000, 5000000, 4000000]) exO (repSol σ) (rep_fits σ) 0 (exEl 12 1 2 2 0 0) rfl
    (by intro l; fin_cases l <;> simp)
  exact ⟨r, x, h1, h2, h3⟩

/-- If it has no place, the loadings of its sides are missing. -/
example (c : Container (Comp Unit)) (h : build repD = .ok c) :=
  branch3_side_loadings_missing (σ := .sym) h exA (fun _ => ![10000000, 5000000, 4000000]) { exO with branch3 := fun _ => none } [] 0 (exEl 12 1 2 2 0 0) rfl rfl

/-- The load. -/
example (σ : Symm) (c : Container (Comp Unit)) (h : build repD = .ok c) := appliance_reports h exA exO (repSol σ) (rep_fits σ) .symLoad (by simp [applianceTypes]) 0 (exEl 5 2 0 0 0 0) rfl

/-- Node 2, line 11, the three-winding transformer, the source, the shunt and the fault in a short-circuit calculation. -/
example (σ : Symm) (c : Container (Comp Unit)) (h : build repD = .ok c) :
    (∃ r, (scNodes exA c exO (repSc σ))[1]? = some (some r) ∧ r.energized = true) ∧
      (∃ r, (scBranches .line exA c exO (repSc σ))[1]? = some (some r) ∧ r.energized = true) ∧
      (∃ r, (scBranches .line exA c exO (repSc σ))[0]? = some (some r) ∧ r.energized = false) ∧
      (∃ r, (scBranch3s exA c exO (repSc σ))[0]? = some (some r) ∧ r.energized = true) ∧
      (∃ r, (scSources exA c exO (repSc σ))[0]? = some (some r) ∧ r.energized = true) ∧
      (∃ r, (scShunts exA c exO (repSc σ))[0]? = some (some r) ∧ r.energized = true) ∧
      (∃ r, (scFaults exA repFault c (repSc σ))[0]? = some (some r) ∧ r.energized = true ∧ InAmpere (σ := σ) r.cur (1000000 / √3) fun _ => 2) := by
  refine ⟨?_, ?_, ?_, ?_, ?_, ?_, ?_⟩
  · obtain ⟨r, h1, _, _, h2⟩ := (sc_nodes h exA exO repFault (repSc σ) (rep_sc_fits σ)).2 1 (exEl 2 0 0 0 0 0) rfl (rep_rated _)
    exact ⟨r, h1, (h2 (0, 1) rfl).1⟩
  · obtain ⟨r, h1, _, _, h2⟩ := (sc_branches h exA exO repFault (repSc σ) (rep_sc_fits σ) .line (by simp [branchTypes])).2 1 (exEl 11 1 2 0 0 0) rfl (rep_rated _) (rep_rated _) (fun _ => rfl)
    exact ⟨r, h1, (h2 (0, 0) rfl).1⟩
  · obtain ⟨r, h1, _, h2, _⟩ := (sc_branches h exA exO repFault (repSc σ) (rep_sc_fits σ) .line (by simp [branchTypes])).2 0 (exEl 10 2 3 0 0 0) rfl (rep_rated _) (rep_rated _) (fun _ => rfl)
    exact ⟨r, h1, (h2 rfl).1⟩
  · obtain ⟨r, h1, _, _, h2⟩ := (sc_branch3s h exA exO repFault (repSc σ) (rep_sc_fits σ)).2 0 (exEl 12 1 2 2 0 0) rfl (rep_rated _) (rep_rated _) (rep_rated _)
    exact ⟨r, h1, (h2 (0, ![1, 2, 3]) rfl).1⟩
  · obtain ⟨r, h1, _, _, h2⟩ := (sc_sources h exA exO repFault (repSc σ) (rep_sc_fits σ)).2 0 (exEl 4 1 0 0 0 0) rfl (rep_rated _)
    exact ⟨r, h1, (h2 (0, 0) rfl).1⟩
  · obtain ⟨r, h1, _, _, h2⟩ := (sc_shunts h exA exO repFault (repSc σ) (rep_sc_fits σ)).2 0 (exEl 6 2 0 0 0 0) rfl (rep_rated _)
    exact ⟨r, h1, (h2 (0, 0) rfl).1⟩
  · obtain ⟨r, h1, _, _, h2⟩ := (sc_faults h exA exO repFault (repSc σ) (rep_sc_fits σ)).2 0 (exEl 40 0 0 0 2 0) rfl (rep_rated _)
    obtain ⟨h3, x, i, h4, h5, h6⟩ := h2 (0, 0) rfl
    simp only [repSc] at h4
    cases h4
    cases h5
    exact ⟨r, h1, h3, h6⟩

/-- The load takes no part. -/
example (c : Container (Comp Unit)) (h : build repD = .ok c) : (scLoads .symLoad c)[0]? = some (some ⟨5, false, ⟨0, 0⟩⟩) := (sc_loads h .symLoad).2 0 (exEl 5 2 0 0 0 0) rfl

end PGM.Reports
