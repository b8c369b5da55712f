import Verif.Output.Model
import Verif.TapOpt.Model

/-!
# The voltage that a transformer tap regulator controls

Prefix of all paths: `P/` = `/repo/power_grid_model_c/power_grid_model/include/power_grid_model/`. Model of
`P/component/transformer_tap_regulator.hpp` (construction, updates, `calc_param`) and of the part of
`P/optimizer/tap_position_optimizer.hpp` that turns a result of the solver into the comparison of the controlled voltage with the band (lines
629-729 and 1119-1131). What the optimiser does with the outcome is the subject of `Verif.TapOpt`.

Simplifications. The components, the couplings and the results of the solvers are those of `Verif.Output.Model`. Arithmetic is exact. `u_set` and
`u_band` of the input are numbers; the components of the line drop compensation, and the values of an update, may be absent. A read out of range or an
exception is `none`.
-/

namespace PGM.TapVoltage

open PGM.Container PGM.Input PGM.Update PGM.Topology PGM.PowerFlow PGM.Output PGM.TapOpt

variable {K : Type} {σ : Symm}

/-- The electrical attributes of `TransformerTapRegulatorInput`. -/
structure RegInput where
  uSet : ℝ
  uBand : ℝ
  r : Option ℝ
  x : Option ℝ

/-- The electrical attributes of `TransformerTapRegulatorUpdate`. -/
structure RegUpdate where
  uSet : Option ℝ
  uBand : Option ℝ
  r : Option ℝ
  x : Option ℝ

/-- The members of `TransformerTapRegulator`, `P/component/transformer_tap_regulator.hpp` lines 96-103. -/
structure Reg where
  uRated : ℝ
  uSet : ℝ
  uBand : ℝ
  r : Option ℝ
  x : Option ℝ

/-- The constructor, `P/component/transformer_tap_regulator.hpp` lines 30-38. -/
def mkReg (uRated : ℝ) (d : RegInput) : Reg := ⟨uRated, d.uSet, d.uBand, d.r, d.x⟩

/-- `TransformerTapRegulator::update`, lines 41-49, with `update_real_value`, `P/common/three_phase_tensor.hpp`: NaN leaves a value as it is. -/
def updateReg (g : Reg) (d : RegUpdate) : Reg where
  uRated := g.uRated
  uSet := d.uSet.getD g.uSet
  uBand := d.uBand.getD g.uBand
  r := d.r.or g.r
  x := d.x.or g.x

/-- `TransformerTapRegulatorCalcParam`. -/
structure RegParam where
  uSet : ℝ
  uBand : ℝ
  zComp : ℂ

/-- `z_base`, lines 80: `base_power<sym>` is the power of one phase in asymmetric calculations. -/
noncomputable def zBase (σ : Symm) (uRated : ℝ) : ℝ := uRated * uRated / basePower σ

/-- `calc_param<sym>`, lines 76-87. -/
noncomputable def regParam (σ : Symm) (g : Reg) : RegParam where
  uSet := g.uSet / g.uRated
  uBand := g.uBand / g.uRated
  zComp := (⟨g.r.getD 0, g.x.getD 0⟩ : ℂ) / (zBase σ g.uRated : ℝ)

/-- `cabs(state.u + param.z_compensation * state.i)`, `P/optimizer/tap_position_optimizer.hpp` lines 724-725. -/
noncomputable def compensated (p : RegParam) (u i : CV σ) (j : Fin σ.phases) : ℝ := ‖u j + p.zComp * i j‖

/-- `mean_val`, `P/common/three_phase_tensor.hpp`. -/
noncomputable def meanVal (v : Fin σ.phases → ℝ) : ℝ :=
  match σ, v with
  | .sym, v => v (0 : Fin 1)
  | .asym, v => (v (0 : Fin 3) + v (1 : Fin 3) + v (2 : Fin 3)) / 3

/-- `NodeState::operator<=>`, lines 720-729. -/
noncomputable def compareState (p : RegParam) (u i : CV σ) : Cmp :=
  cmpBand ⟨0, 0, false, true, p.uSet, p.uBand⟩ (some (meanVal (compensated p u i)))

/-- Which of the nodes of a transformer: `get_topo_node`, `P/main_core/state_queries.hpp` lines 39-50. -/
def sideNode2 (n : Nat × Nat) (side : Int) : Option Nat :=
  if side = 0 then some n.1 else if side = 1 then some n.2 else none

/-- `i_pu` of a transformer, `P/optimizer/tap_position_optimizer.hpp` lines 629-643. -/
def sideCurrent2 (b : BranchSol σ) (side : Int) : Option (CV σ) :=
  if side = 0 then some b.iF else if side = 1 then some b.iT else none

/-- `u_pu_controlled_node` and `i_pu_controlled_node` of a transformer with the given ID, lines 664-699: the sequence number of the transformer among the branches
leads to its nodes and to its place in the results. -/
def controlState2 (c : Container (Comp K)) (O : Objects) (sol : List (Sol σ)) (id side : Int) : Option (CV σ × CV σ) := do
  let s ← seqById .branch c id
  let n ← registered .branch c (branchNodes c) s
  let n ← sideNode2 n side
  let u ← nodeVoltage O sol n
  let m ← O.branch s
  let b ← at2 sol Sol.branch m
  let i ← sideCurrent2 b side
  some (u, i)

/-- The number of a side of a three-winding transformer. -/
def side3 (side : Int) : Option (Fin 3) :=
  if side = 0 then some 0 else if side = 1 then some 1 else if side = 2 then some 2 else none

/-- `branch3_node_idx` of one side, `P/main_core/topology.hpp` lines 61-69. -/
def branch3Node (c : Container (Comp K)) (m : Fin 3) (x : Comp K) : Option Nat := seqById .node c (node3 x m)

/-- The same for a three-winding transformer, lines 645-662 and 664-699. -/
def controlState3 (c : Container (Comp K)) (O : Objects) (sol : List (Sol σ)) (id side : Int) : Option (CV σ × CV σ) := do
  let s ← seqById .branch3 c id
  let l ← side3 side
  let n ← registered .branch3 c (branch3Node c l) s
  let u ← nodeVoltage O sol n
  let m ← O.branch3 s
  let b ← at2 sol Sol.branch (m.1, m.2 l)
  some (u, b.iF)

/-- `regulated_terminal`, `P/main_core/input.hpp` lines 168-205: the node whose rated voltage the regulator is constructed with. -/
def terminal2 (e : Elem K) (side : Int) : Int := if side = 0 then e.n1 else e.n2

/-- The regulator of a transformer after its updates. -/
noncomputable def regulator (A : Attr) (node : Int) (d : RegInput) (us : List RegUpdate) : Reg := us.foldl updateReg (mkReg (A.uRated node) d)

/-- `compute_node_state_and_param` and the comparison, lines 1119-1142, for a transformer. -/
noncomputable def compare2 (A : Attr) (c : Container (Comp K)) (O : Objects) (sol : List (Sol σ)) (e : Elem K) (side : Int) (d : RegInput)
    (us : List RegUpdate) : Option Cmp := do
  let st ← controlState2 c O sol e.id side
  some (compareState (regParam σ (regulator A (terminal2 e side) d us)) st.1 st.2)

/-- The same for a three-winding transformer. -/
noncomputable def compare3 (A : Attr) (c : Container (Comp K)) (O : Objects) (sol : List (Sol σ)) (e : Elem K) (side : Int) (d : RegInput)
    (us : List RegUpdate) : Option Cmp := do
  let l ← side3 side
  let st ← controlState3 c O sol e.id side
  some (compareState (regParam σ (regulator A (node3 ⟨.threeWindingTransformer, e⟩ l) d us)) st.1 st.2)

end PGM.TapVoltage
