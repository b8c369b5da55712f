import Verif.Output.Model

/-!
# Apparent powers, power factors, loadings and short-circuit records

Prefix of all paths: `P/` = `/repo/power_grid_model_c/power_grid_model/include/power_grid_model/`. Model of the parts of `P/main_core/output.hpp` and of the output functions of the
components that `Verif.Output.Model` leaves out: apparent powers, power factors and loadings of steady-state calculations, and the records of short-circuit calculations.

Simplifications. As in `Verif.Output.Model`; the further attributes of a steady-state record are a record of their own (`BranchMore` and so on), which the code computes in
the same function. A rated current or power that is not given is `none`, and so is a loading that is NaN. Division by a rating of zero, which gives infinity or NaN, is outside of the theorems.
-/

namespace PGM.Reports

open PGM.Container PGM.Input PGM.Update PGM.Topology PGM.PowerFlow PGM.Output

variable {K : Type} {σ : Symm}

/-! ## Steady state -/

/-- `sum_val`, `P/common/three_phase_tensor.hpp`. -/
noncomputable def sumVal (v : RV σ ℝ) : ℝ :=
  match σ, v with
  | .sym, v => v (0 : Fin 1)
  | .asym, v => v (0 : Fin 3) + v (1 : Fin 3) + v (2 : Fin 3)

/-- `max_val`, `P/common/three_phase_tensor.hpp`. -/
noncomputable def maxVal (v : RV σ ℝ) : ℝ :=
  match σ, v with
  | .sym, v => v (0 : Fin 1)
  | .asym, v => max (max (v (0 : Fin 3)) (v (1 : Fin 3))) (v (2 : Fin 3))

/-- `loading`: `P/component/line.hpp` line 41, `asym_line.hpp` line 46, `link.hpp` line 28, `generic_branch.hpp` line 59, `transformer.hpp` line 95. `rating` is `i_n` of lines and `sn` of
transformers and generic branches. -/
noncomputable def loadingOf (t : CompType) (rating : Option ℝ) (maxS maxI : ℝ) : Option ℝ :=
  match t with
  | .line | .asymLine => rating.map fun r => maxI / r
  | .transformer => rating.map fun r => maxS / r
  | .genericBranch => some (match rating with | none => 0 | some r => maxS / r)
  | _ => some 0

/-- The rest of `BranchOutput`. -/
structure BranchMore (σ : Symm) where
  sFrom : RV σ ℝ
  sTo : RV σ ℝ
  loading : Option ℝ

/-- `Branch::get_output`, `P/component/branch.hpp` lines 93-111. -/
noncomputable def branchMore (A : Attr) (rating : Int → Option ℝ) (x : Comp K) (r : BranchSol σ) : BranchMore σ :=
  let sFrom : RV σ ℝ := fun j => basePower σ * ‖r.sF j‖
  let sTo : RV σ ℝ := fun j => basePower σ * ‖r.sT j‖
  let out := branchOutput A x r
  ⟨sFrom, sTo, loadingOf x.type (rating x.elem.id) (max (sumVal sFrom) (sumVal sTo)) (max (maxVal out.iFrom) (maxVal out.iTo))⟩

/-- `Branch::get_null_output`, `P/component/branch.hpp` lines 141-153. -/
def branchMoreNull : BranchMore σ := ⟨0, 0, some 0⟩

/-- `output_result` of a branch, `P/main_core/output.hpp` lines 88-97. -/
noncomputable def branchMoreResult (A : Attr) (rating : Int → Option ℝ) (O : Objects) (sol : List (Sol σ)) (x : Comp K) (s : Nat) : Option (BranchMore σ) :=
  match O.branch s with
  | none => some branchMoreNull
  | some m => do
    let r ← at2 sol Sol.branch m
    some (branchMore A rating x r)

/-- The rest of `Branch3Output`. -/
structure Branch3More (σ : Symm) where
  s : Fin 3 → RV σ ℝ
  loading : Option ℝ
  loadings : Fin 3 → Option ℝ

/-- `Branch3::get_output`, `P/component/branch3.hpp` lines 95-97 and 112-141, with `loading_1` and so on, `P/component/three_winding_transformer.hpp` lines 123-125. `sn m` is the rating of
side `m`, which is required. -/
noncomputable def branch3More (sn : Int → Fin 3 → ℝ) (x : Comp K) (r : Fin 3 → BranchSol σ) : Branch3More σ :=
  let s : Fin 3 → RV σ ℝ := fun m j => basePower σ * ‖(r m).sF j‖
  let l : Fin 3 → ℝ := fun m => sumVal (s m) / sn x.elem.id m
  ⟨s, some (max (max (l 0) (l 1)) (l 2)), fun m => some (l m)⟩

/-- `Branch3::get_null_output`, `P/component/branch3.hpp` lines 172-190: the loadings of the sides are not set, so they stay NaN. -/
def branch3MoreNull : Branch3More σ := ⟨0, some 0, fun _ => none⟩

/-- `output_result` of a branch with three sides, `P/main_core/output.hpp` lines 107-119. -/
noncomputable def branch3MoreResult (sn : Int → Fin 3 → ℝ) (O : Objects) (sol : List (Sol σ)) (x : Comp K) (s : Nat) : Option (Branch3More σ) :=
  match O.branch3 s with
  | none => some branch3MoreNull
  | some m => do
    let r0 ← at2 sol Sol.branch (m.1, m.2 0)
    let r1 ← at2 sol Sol.branch (m.1, m.2 1)
    let r2 ← at2 sol Sol.branch (m.1, m.2 2)
    some (branch3More sn x ![r0, r1, r2])

/-- The rest of `ApplianceOutput`. -/
structure ApplMore (σ : Symm) where
  s : RV σ ℝ
  pf : RV σ ℝ

/-- The power factor of one phase, `P/component/appliance.hpp` lines 75-89; `numerical_tolerance` is 1e-8, `P/common/common.hpp` line 86. -/
noncomputable def powerFactor (p s : ℝ) : ℝ := if s < 1 / 100000000 then 0 else p / s

/-- `Appliance::get_output`, `P/component/appliance.hpp` lines 66-91. -/
noncomputable def applMore (A : Attr) (x : Comp K) (r : ApplSol σ) : ApplMore σ :=
  let s : RV σ ℝ := fun j => basePower σ * ‖r.s j‖
  ⟨s, fun j => powerFactor ((applOutput A x r).p j) (s j)⟩

/-- `output_result` of a source, a load or generator or a shunt, `P/main_core/output.hpp` lines 132-178; null output `P/component/appliance.hpp` lines 55-59. -/
noncomputable def applMoreResult (member : Sol σ → List (ApplSol σ)) (coup : Nat → Option (Nat × Nat)) (A : Attr) (sol : List (Sol σ)) (x : Comp K) (s : Nat) :
    Option (ApplMore σ) :=
  match coup s with
  | none => some ⟨0, 0⟩
  | some m => do
    let r ← at2 sol member m
    some (applMore A x r)

/-- The rest of the records of a type of branch. -/
noncomputable def branchMores (t : CompType) (A : Attr) (rating : Int → Option ℝ) (c : Container (Comp K)) (O : Objects) (sol : List (Sol σ)) :
    List (Option (BranchMore σ)) := produce t c some (branchMoreResult A rating O sol)

/-- The rest of the records of the three-winding transformers. -/
noncomputable def branch3Mores (sn : Int → Fin 3 → ℝ) (c : Container (Comp K)) (O : Objects) (sol : List (Sol σ)) : List (Option (Branch3More σ)) :=
  produce .threeWindingTransformer c some (branch3MoreResult sn O sol)

/-- The rest of the records of a type of appliance. -/
noncomputable def applMores (t : CompType) (A : Attr) (c : Container (Comp K)) (O : Objects) (sol : List (Sol σ)) : List (Option (ApplMore σ)) :=
  produce t c some (applMoreResult (applMember t) (applCoupling O t) A sol)

/-! ## Short circuit -/

/-- `ShortCircuitSolverOutput`, `P/calculation_parameters.hpp` lines 352-361. -/
structure ScSol (σ : Symm) where
  u : List (CV σ)
  fault : List (CV σ)
  branch : List (CV σ × CV σ)
  source : List (CV σ)
  shunt : List (CV σ)

/-- `solver_output[math_id.group].member[math_id.pos]`. -/
def scAt {β : Type} (sol : List (ScSol σ)) (member : ScSol σ → List β) (m : Nat × Nat) : Option β := do
  let s ← sol[m.1]?
  (member s)[m.2]?

/-- `ComplexValue<asymmetric_t>{x}` of a symmetric result; an asymmetric result is used as it is. -/
noncomputable def three (x : CV σ) : Fin 3 → ℂ :=
  match σ, x with
  | .sym, x => spread .asym (x (0 : Fin 1))
  | .asym, x => x

/-- `NodeShortCircuitOutput`. -/
structure ScNode where
  id : Int
  energized : Bool
  uPu : Fin 3 → ℝ
  u : Fin 3 → ℝ
  uAngle : Fin 3 → ℝ

/-- `Node::get_sc_output`, `P/component/node.hpp` lines 48-61. -/
noncomputable def scNode (A : Attr) (x : Comp K) (u : CV σ) : ScNode where
  id := x.elem.id
  energized := true
  uPu := fun j => ‖three u j‖
  u := fun j => uScale .asym * A.uRated x.elem.id * ‖three u j‖
  uAngle := fun j => (three u j).arg

/-- `output_result` of a node, `P/main_core/output.hpp` lines 73-85; null output `P/component/node.hpp` lines 68-72. -/
noncomputable def scNodeResult (A : Attr) (O : Objects) (sol : List (ScSol σ)) (x : Comp K) (s : Nat) : Option ScNode :=
  match O.node s with
  | none => some ⟨x.elem.id, false, 0, 0, 0⟩
  | some m => do
    let u ← scAt sol ScSol.u m
    some (scNode A x u)

/-- A current in a short-circuit record: magnitude and angle. -/
structure ScCurrent where
  i : Fin 3 → ℝ
  angle : Fin 3 → ℝ

/-- `base_i * cabs(i)` and `arg(i)`. -/
noncomputable def scCurrent (base : ℝ) (i : CV σ) : ScCurrent := ⟨fun j => base * ‖three i j‖, fun j => (three i j).arg⟩

/-- `BranchShortCircuitOutput`. -/
structure ScBranch where
  id : Int
  energized : Bool
  fromSide : ScCurrent
  toSide : ScCurrent

/-- `output_result` of a branch, `P/main_core/output.hpp` lines 98-105, with `Branch::get_sc_output`, `P/component/branch.hpp` lines 113-139, and null output lines 155-159. -/
noncomputable def scBranchResult (A : Attr) (O : Objects) (sol : List (ScSol σ)) (x : Comp K) (s : Nat) : Option ScBranch :=
  match O.branch s with
  | none => some ⟨x.elem.id, false, ⟨0, 0⟩, ⟨0, 0⟩⟩
  | some m => do
    let r ← scAt sol ScSol.branch m
    some ⟨x.elem.id, true, scCurrent (baseCurrent (A.uRated x.elem.n1)) r.1, scCurrent (baseCurrent (ratedTo A x)) r.2⟩

/-- `Branch3ShortCircuitOutput`. -/
structure ScBranch3 where
  id : Int
  energized : Bool
  side : Fin 3 → ScCurrent

/-- `output_result` of a branch with three sides, `P/main_core/output.hpp` lines 120-130, with `Branch3::get_sc_output`, `P/component/branch3.hpp` lines 143-170, and null output lines 192-197. -/
noncomputable def scBranch3Result (A : Attr) (O : Objects) (sol : List (ScSol σ)) (x : Comp K) (s : Nat) : Option ScBranch3 :=
  match O.branch3 s with
  | none => some ⟨x.elem.id, false, fun _ => ⟨0, 0⟩⟩
  | some m => do
    let r0 ← scAt sol ScSol.branch (m.1, m.2 0)
    let r1 ← scAt sol ScSol.branch (m.1, m.2 1)
    let r2 ← scAt sol ScSol.branch (m.1, m.2 2)
    some ⟨x.elem.id, true, fun l => scCurrent (baseCurrent (A.uRated (node3 x l))) ((![r0.1, r1.1, r2.1] : Fin 3 → CV σ) l)⟩

/-- `ApplianceShortCircuitOutput` and `FaultShortCircuitOutput`. -/
structure ScAppl where
  id : Int
  energized : Bool
  cur : ScCurrent

/-- `Appliance::get_sc_output`, `P/component/appliance.hpp` lines 92-108: the angle is that of the current in the reference direction. -/
noncomputable def scAppl (A : Attr) (x : Comp K) (i : CV σ) : ScAppl where
  id := x.elem.id
  energized := A.on x.elem.id
  cur := ⟨fun j => baseCurrent (A.uRated x.elem.n1) * ‖three i j‖, fun j => (three i j * (injectionDirection x.type : ℝ)).arg⟩

/-- `output_result` of a source or a shunt, `P/main_core/output.hpp` lines 142-152 and 179-187; null output `P/component/appliance.hpp` lines 60-64. -/
noncomputable def scApplResult (member : ScSol σ → List (CV σ)) (coup : Nat → Option (Nat × Nat)) (A : Attr) (sol : List (ScSol σ)) (x : Comp K) (s : Nat) : Option ScAppl :=
  match coup s with
  | none => some ⟨x.elem.id, false, ⟨0, 0⟩⟩
  | some m => do
    let r ← scAt sol member m
    some (scAppl A x r)

/-- `output_result` of a load or generator, `P/main_core/output.hpp` lines 165-168. -/
def scLoadResult (x : Comp K) (_ : Nat) : Option ScAppl := some ⟨x.elem.id, false, ⟨0, 0⟩⟩

/-- `Fault::get_sc_output`, `P/component/fault.hpp` lines 86-109. -/
noncomputable def scFault (uRated : ℝ) (x : Comp K) (i : CV σ) : ScAppl where
  id := x.elem.id
  energized := true
  cur := ⟨fun j => ‖three i j * (baseCurrent uRated : ℝ)‖, fun j => (three i j * (baseCurrent uRated : ℝ)).arg⟩

/-- `output_result` of a fault, `P/main_core/output.hpp` lines 367-378. `coup` is `comp_coup.fault`. -/
noncomputable def scFaultResult (A : Attr) (coup : Nat → Option (Nat × Nat)) (sol : List (ScSol σ)) (x : Comp K) (s : Nat) : Option ScAppl :=
  match coup s with
  | none => some ⟨x.elem.id, false, ⟨0, 0⟩⟩
  | some m => do
    let r ← scAt sol ScSol.fault m
    some (scFault (A.uRated x.elem.object) x r)

/-- The short-circuit records of the nodes. -/
noncomputable def scNodes (A : Attr) (c : Container (Comp K)) (O : Objects) (sol : List (ScSol σ)) : List (Option ScNode) :=
  produce .node c some (scNodeResult A O sol)

/-- The short-circuit records of a type of branch. -/
noncomputable def scBranches (t : CompType) (A : Attr) (c : Container (Comp K)) (O : Objects) (sol : List (ScSol σ)) : List (Option ScBranch) :=
  produce t c some (scBranchResult A O sol)

/-- The short-circuit records of the three-winding transformers. -/
noncomputable def scBranch3s (A : Attr) (c : Container (Comp K)) (O : Objects) (sol : List (ScSol σ)) : List (Option ScBranch3) :=
  produce .threeWindingTransformer c some (scBranch3Result A O sol)

/-- The short-circuit records of the sources. -/
noncomputable def scSources (A : Attr) (c : Container (Comp K)) (O : Objects) (sol : List (ScSol σ)) : List (Option ScAppl) :=
  produce .source c some (scApplResult ScSol.source O.source A sol)

/-- The short-circuit records of the shunts. -/
noncomputable def scShunts (A : Attr) (c : Container (Comp K)) (O : Objects) (sol : List (ScSol σ)) : List (Option ScAppl) :=
  produce .shunt c some (scApplResult ScSol.shunt O.shunt A sol)

/-- The short-circuit records of a type of load or generator. -/
def scLoads (t : CompType) (c : Container (Comp K)) : List (Option ScAppl) := produce t c some scLoadResult

/-- The short-circuit records of the faults. -/
noncomputable def scFaults (A : Attr) (coup : Nat → Option (Nat × Nat)) (c : Container (Comp K)) (sol : List (ScSol σ)) : List (Option ScAppl) :=
  produce .fault c some (scFaultResult A coup sol)

end PGM.Reports
