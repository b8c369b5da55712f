import Verif.PowerFlow.EndToEnd
import Verif.PowerFlow.NewtonProps
import Mathlib.Analysis.SpecialFunctions.Complex.Arg

/-!
# The Newton-Raphson power flow

Prefix of all paths: `P/` = `/repo/power_grid_model_c/power_grid_model/include/power_grid_model/`. Model of
`P/math_solver/newton_raphson_pf_solver.hpp` lines 176-870: the linear start, the Jacobian and the right-hand side, the voltage-controlled buses,
the linear solve and the update of the unknowns. The switching at reactive limits is in `Verif/PowerFlow/NewtonLimits.lean`.

Simplifications: exact real and complex numbers. Vectors that the code indexes by bus or by load are functions. The sparse solver overwrites the
Jacobian and the right-hand side with factors and solution; here the Jacobian keeps its values, which no later step reads before it overwrites
them (`build_get` is about any earlier values).
-/

namespace PGM.NewtonPf

open PGM.YBus PGM.Lu PGM.PowerFlow PGM.Component

variable {s : Symm}

/-- `RealTensor<sym>`. -/
abbrev RM (s : Symm) := Matrix (Fin s.phases) (Fin s.phases) ℝ

/-- `PolarPhasor` as unknown, lines 176-194: angle and magnitude; as solution of the linear equations, the change of the angle and the relative
change of the magnitude. -/
structure Polar (s : Symm) where
  theta : RV s ℝ
  v : RV s ℝ

/-- `ComplexPower`, line 197: active and reactive power; in the linear start, the real and the imaginary part of a current. -/
structure Power (s : Symm) where
  p : RV s ℝ
  q : RV s ℝ

/-- `PFJacBlock`, lines 206-226. In the linear start `h`, `n`, `m`, `l` are called `real_real`, `real_imag`, `imag_real`, `imag_imag`. -/
structure Jac (s : Symm) where
  h : RM s
  n : RM s
  m : RM s
  l : RM s

/-- `PFJacBlock<sym>{}`. -/
def Jac.zero : Jac s := ⟨0, 0, 0, 0⟩

/-- `sum_row`, `P/common/three_phase_tensor.hpp` lines 286-291. -/
def sumRow (a : RM s) : RV s ℝ := fun p => ∑ q, a p q

/-- `add_diag`, `P/common/three_phase_tensor.hpp` lines 338-352. -/
def addDiag (a : RM s) (v : RV s ℝ) : RM s := a + Matrix.diagonal v

/-- The Jacobian and the right-hand side: `data_jac_` and `del_x_pq_`. -/
structure Sys (s : Symm) where
  jac : List (Jac s)
  pq : Nat → Power s

/-! ## The network -/

/-- `power_flow_ij` of `calculate_hnml`, line 465: a product of entries. -/
noncomputable def powerFlow (y : CM s) (ui uj : CV s) : CM s := fun p q => ui p * star (uj q) * star (y p q)

/-- `calculate_hnml`, lines 462-471. -/
noncomputable def hnml (y : CM s) (ui uj : CV s) : Jac s where
  h := fun p q => (powerFlow y ui uj p q).im
  n := fun p q => (powerFlow y ui uj p q).re
  m := fun p q => -(powerFlow y ui uj p q).re
  l := fun p q => (powerFlow y ui uj p q).im

/-- One entry of a row, lines 493-507. -/
noncomputable def netEntry (N : PfNet s) (u : Nat → CV s) (row : Nat) (x : Sys s) (k : Nat) : Sys s :=
  match N.S.mapLuYBus[k]?.getD none with
  | none => { x with jac := x.jac.set k Jac.zero }
  | some d =>
    let b := hnml (N.y.admittance[d]?.getD 0) (u row) (u (N.S.colIndicesLu[k]?.getD 0))
    ⟨x.jac.set k b, Function.update x.pq row ⟨(x.pq row).p - sumRow b.n, (x.pq row).q - sumRow b.h⟩⟩

/-- The correction of the diagonal, lines 508-519. -/
def correctDiag (N : PfNet s) (x : Sys s) (row : Nat) : Sys s :=
  let pq := x.pq row
  { x with jac := x.jac.modify (N.S.diagLu[row]?.getD 0) fun b =>
      ⟨addDiag b.h pq.q, addDiag b.n (-pq.p), addDiag b.m (-pq.p), addDiag b.l (-pq.q)⟩ }

/-- One row of `prepare_matrix_and_rhs_from_network_perspective`, lines 486-520. -/
noncomputable def netRow (N : PfNet s) (u : Nat → CV s) (x : Sys s) (row : Nat) : Sys s :=
  let a := N.S.rowIndptrLu[row]?.getD 0
  let z := N.S.rowIndptrLu[row + 1]?.getD 0
  correctDiag N ((List.range' a (z - a)).foldl (netEntry N u row) { x with pq := Function.update x.pq row ⟨0, 0⟩ }) row

/-- `prepare_matrix_and_rhs_from_network_perspective`, lines 473-521; `skip` are the rows that a partial rebuild leaves. -/
noncomputable def network (N : PfNet s) (u : Nat → CV s) (skip : Nat → Bool) (x : Sys s) : Sys s :=
  (List.range N.T.nBus).foldl (fun x row => if skip row then x else netRow N u x row) x

/-! ## Loads, generators and sources -/

/-- What one load or generator adds to the right-hand side: the four cases of `add_loads`, lines 768-775, 797-798, 805-806 and 817-818. -/
def loadPower (inp : PfInput s) (type : LoadType) (clamped : Option (RV s ℝ)) (k : Nat) (v : RV s ℝ) : Power s :=
  match clamped with
  | some q => ⟨fun p => (inp.sInj k p).re, q⟩
  | none =>
    match type with
    | .constPq => ⟨fun p => (inp.sInj k p).re, fun p => (inp.sInj k p).im⟩
    | .constY => ⟨fun p => (inp.sInj k p).re * v p * v p, fun p => (inp.sInj k p).im * v p * v p⟩
    | .constI => ⟨fun p => (inp.sInj k p).re * v p, fun p => (inp.sInj k p).im * v p⟩

/-- What it adds to the diagonal of `n` and `l`: lines 799, 808-811 and 820-821. -/
def loadSlope (inp : PfInput s) (type : LoadType) (clamped : Option (RV s ℝ)) (k : Nat) (v : RV s ℝ) : Power s :=
  match clamped with
  | some _ => ⟨0, 0⟩
  | none =>
    match type with
    | .constPq => ⟨0, 0⟩
    | .constY => ⟨fun p => -(inp.sInj k p).re * 2 * v p * v p, fun p => -(inp.sInj k p).im * 2 * v p * v p⟩
    | .constI => ⟨fun p => -(inp.sInj k p).re * v p, fun p => -(inp.sInj k p).im * v p⟩

/-- `add_loads` for one load or generator, lines 767-792. -/
def addLoad (N : PfNet s) (inp : PfInput s) (type : Nat → LoadType) (clamped : Nat → Option (RV s ℝ)) (v : RV s ℝ) (bus : Nat)
    (x : Sys s) (k : Nat) : Sys s :=
  let a := loadPower inp (type k) (clamped k) k v
  let d := loadSlope inp (type k) (clamped k) k v
  ⟨x.jac.modify (N.S.diagLu[bus]?.getD 0) fun b => { b with n := addDiag b.n d.p, l := addDiag b.l d.q },
    Function.update x.pq bus ⟨(x.pq bus).p + a.p, (x.pq bus).q + a.q⟩⟩

/-- `add_sources` for one source, lines 826-851. -/
noncomputable def addSource (N : PfNet s) (inp : PfInput s) (u : CV s) (bus : Nat) (x : Sys s) (k : Nat) : Sys s :=
  let y := yRef s (N.y1 k) (N.y0 k)
  let mm := hnml y u u
  let ms := hnml (-y) u (spread s (inp.source k))
  let pCal := sumRow (mm.n + ms.n)
  let qCal := sumRow (mm.h + ms.h)
  ⟨x.jac.modify (N.S.diagLu[bus]?.getD 0) fun b =>
      ⟨b.h + addDiag mm.h (-qCal), b.n + addDiag mm.n pCal, b.m + addDiag mm.m pCal, b.l + addDiag mm.l qCal⟩,
    Function.update x.pq bus ⟨(x.pq bus).p - pCal, (x.pq bus).q - qCal⟩⟩

/-- One bus of the loop of `build_jacobian_and_rhs`, lines 533-546. -/
noncomputable def buildBus (N : PfNet s) (inp : PfInput s) (type : Nat → LoadType) (clamped : Nat → Option (RV s ℝ)) (pol : Nat → Polar s)
    (u : Nat → CV s) (x : Sys s) (bus : Nat) : Sys s :=
  (onBus N.sourceBus bus).foldl (addSource N inp (u bus) bus)
    ((onBus N.loadBus bus).foldl (addLoad N inp type clamped (pol bus).v bus) x)

/-- `build_jacobian_and_rhs`, lines 523-547. -/
noncomputable def build (N : PfNet s) (inp : PfInput s) (type : Nat → LoadType) (clamped : Nat → Option (RV s ℝ)) (pol : Nat → Polar s)
    (u : Nat → CV s) (skip : Nat → Bool) (x : Sys s) : Sys s :=
  (List.range N.T.nBus).foldl (fun x bus => if skip bus then x else buildBus N inp type clamped pol u x bus) (network N u skip x)

/-! ## Voltage-controlled buses -/

/-- One entry of a row of a voltage-controlled bus, lines 571-582. -/
def pvEntry (N : PfNet s) (v : RV s ℝ) (row : Nat) (jac : List (Jac s)) (k : Nat) : List (Jac s) :=
  jac.modify k fun b => { b with m := 0, l := if row = N.S.colIndicesLu[k]?.getD 0 then Matrix.diagonal v else 0 }

/-- One voltage-controlled row, lines 570-585. -/
def pvRow (N : PfNet s) (pol : Nat → Polar s) (x : Sys s) (row : Nat) : Sys s :=
  let a := N.S.rowIndptrLu[row]?.getD 0
  let z := N.S.rowIndptrLu[row + 1]?.getD 0
  ⟨(List.range' a (z - a)).foldl (pvEntry N (pol row).v row) x.jac, Function.update x.pq row ⟨(x.pq row).p, 0⟩⟩

/-- `apply_pv_constraints`, lines 549-587. -/
def applyPv (N : PfNet s) (ctl : Nat → Newton.Control ℝ) (pol : Nat → Polar s) (x : Sys s) : Sys s :=
  (List.range N.T.nBus).foldl (fun x row => if (ctl row).type = .pv then pvRow N pol x row else x) x

/-! ## The linear equations -/

/-- Two values as one vector of the sparse solver. -/
def join {n : Nat} (a b : Fin n → ℝ) : Fin (n + n) → ℝ := fun i => Sum.elim a b (finSumFinEquiv.symm i)

/-- The first half. -/
def upper {n : Nat} (x : Fin (n + n) → ℝ) : Fin n → ℝ := fun p => x (finSumFinEquiv (Sum.inl p))

/-- The second half. -/
def lower {n : Nat} (x : Fin (n + n) → ℝ) : Fin n → ℝ := fun p => x (finSumFinEquiv (Sum.inr p))

/-- The layout of a block. -/
def Jac.toBlk (b : Jac s) : Blk ℝ (s.phases + s.phases) :=
  (Matrix.fromBlocks b.h b.n b.m b.l).submatrix finSumFinEquiv.symm finSumFinEquiv.symm

/-- `sparse_solver_.prefactorize_and_solve(data_jac_, perm_, del_x_pq_, del_x_pq_)`, lines 289 and 322. -/
noncomputable def solve (N : PfNet s) (perms : List (BlockPerm (s.phases + s.phases))) (x : Sys s) : Except Err (Nat → Polar s) := do
  let r ← factorizeAndSolve (luPattern N.S) false (x.jac.map Jac.toBlk) perms ((List.range N.T.nBus).map fun b => join (x.pq b).p (x.pq b).q)
  .ok fun b => ⟨upper (r[b]?.getD 0), lower (r[b]?.getD 0)⟩

/-! ## The linear start -/

/-- `set_linear_block`, lines 856-863. -/
def linearBlock (y : CM s) : Jac s where
  h := fun p q => (y p q).re
  n := fun p q => -(y p q).im
  m := fun p q => (y p q).im
  l := fun p q => (y p q).re

/-- The admittance matrix in the linear start, lines 268-275. -/
def linearCopy (N : PfNet s) : List (Jac s) :=
  (List.range N.S.colIndicesLu.length).map fun k =>
    match N.S.mapLuYBus[k]?.getD none with
    | none => Jac.zero
    | some d => linearBlock (N.y.admittance[d]?.getD 0)

/-- What the solver knows of loads and generators besides their powers: types, statuses and voltage regulators. -/
structure LoadInfo (s : Symm) where
  type : Nat → LoadType
  on : Nat → Bool
  regs : Nat → List (Newton.RegIn ℝ)

/-- `is_regulated`, lines 711-718. -/
def isRegulated (g : LoadInfo s) (k : Nat) : Bool := (g.regs k).any fun r => r.on && g.on k

/-- The power used in the linear start, lines 727-728. -/
def startPower (inp : PfInput s) (g : LoadInfo s) (k : Nat) : CV s :=
  if isRegulated g k then fun p => ((inp.sInj k p).re : ℂ) else inp.sInj k

/-- `add_linear_initial_guess_loads` for one load or generator, lines 708-741. -/
def addStartLoad (N : PfNet s) (inp : PfInput s) (g : LoadInfo s) (bus : Nat) (x : Sys s) (k : Nat) : Sys s :=
  let y : CV s := -star (startPower inp g k)
  { x with jac := x.jac.modify (N.S.diagLu[bus]?.getD 0) fun b =>
      ⟨addDiag b.h fun p => (y p).re, addDiag b.n fun p => -(y p).im, addDiag b.m fun p => (y p).im, addDiag b.l fun p => (y p).re⟩ }

/-- `add_linear_initial_guess_sources` for one source, lines 746-761, with `add_linear_rhs`, lines 866-870. -/
noncomputable def addStartSource (N : PfNet s) (inp : PfInput s) (bus : Nat) (x : Sys s) (k : Nat) : Sys s :=
  let y := yRef s (N.y1 k) (N.y0 k)
  let i := dot s y (spread s (inp.source k))
  ⟨x.jac.modify (N.S.diagLu[bus]?.getD 0) fun b =>
      ⟨b.h + (linearBlock y).h, b.n + (linearBlock y).n, b.m + (linearBlock y).m, b.l + (linearBlock y).l⟩,
    Function.update x.pq bus ⟨fun p => (x.pq bus).p p + (i p).re, fun p => (x.pq bus).q p + (i p).im⟩⟩

/-- The equations of the linear start, lines 257-286. -/
noncomputable def startSys (N : PfNet s) (inp : PfInput s) (g : LoadInfo s) : Sys s :=
  (List.range N.T.nBus).foldl (fun x bus => (onBus N.sourceBus bus).foldl (addStartSource N inp bus)
    ((onBus N.loadBus bus).foldl (addStartLoad N inp g bus) x)) ⟨linearCopy N, fun _ => ⟨0, 0⟩⟩

/-- `phase_shift`, `P/common/three_phase_tensor.hpp` lines 219-228. -/
noncomputable def phaseShift (z : ℂ) : ℂ := if 0 < ‖z‖ then z / (‖z‖ : ℝ) else 1

/-- `set_reference_voltage_for_pv_buses`, lines 447-453, for one bus. -/
noncomputable def referenceVoltage (c : Newton.Control ℝ) (u : CV s) : CV s :=
  if c.type = .pv then fun p => (c.uRef : ℂ) * phaseShift (u p) else u

/-- What the switching at limits (`PGM.PowerFlow.Newton`) reads of the input. -/
def limitsInput (N : PfNet s) (inp : PfInput s) (g : LoadInfo s) : Newton.Input s ℝ where
  buses := (List.range N.T.nBus).map fun b => ⟨!(onBus N.sourceBus b).isEmpty, onBus N.loadBus b⟩
  gen k := ⟨g.on k, decide (g.type k = .constPq), fun p => (inp.sInj k p).im, g.regs k⟩

/-- The members of the solver: `bus_control_`, `clamped_regulators_per_load_gen_`, `limit_check_countdown_` in `lim`; `data_jac_` and `del_x_pq_` in
`sys`; `x_`; `perm_`. -/
structure Nr (s : Symm) where
  lim : Newton.State s ℝ
  sys : Sys s
  pol : Nat → Polar s
  perms : List (BlockPerm (s.phases + s.phases))

/-- What a power flow can end with besides divergence: an error of the sparse solver or `UnsupportedLoadGenTypeForVoltageRegulator`. -/
inductive NrErr where
  | sparse (e : Err)
  | unsupported

/-- An error of the sparse solver. -/
def liftErr {A : Type} : Except Err A → Except NrErr A
  | .ok a => .ok a
  | .error e => .error (.sparse e)

/-- The voltages and the unknowns after the linear start, lines 291-302. -/
noncomputable def startVoltage (N : PfNet s) (inp : PfInput s) (g : LoadInfo s) (x : Nat → Polar s) (b : Nat) : CV s :=
  referenceVoltage ((Newton.start (limitsInput N inp g)).ctl b) fun p => ((x b).theta p : ℂ) + ((x b).v p : ℂ) * Complex.I

/-- `initialize_derived_solver`, lines 255-303. -/
noncomputable def nrInit (N : PfNet s) (inp : PfInput s) (g : LoadInfo s) (st : Nr s) : Except NrErr (Nr s × (Nat → CV s)) := do
  let x ← liftErr (solve N st.perms (startSys N inp g))
  let u := startVoltage N inp g x
  .ok (⟨Newton.start (limitsInput N inp g), startSys N inp g, fun b => ⟨fun p => (u b p).arg, fun p => ‖u b p‖⟩, st.perms⟩, u)

/-! ## Iterations -/

/-- The rows that a partial rebuild does not skip: `recalc_after_limit_violation` is set where a bus is switched, line 698, and reset by the rebuild
that follows, line 541. -/
def unswitched (before after : Newton.State s ℝ) (b : Nat) : Bool := !((before.ctl b).type = .pv && (after.ctl b).type ≠ .pv)

/-- `prepare_matrix_and_rhs`, lines 306-319. `limTol` is `numerical_tolerance`. -/
noncomputable def prepare (limTol : ℝ) (N : PfNet s) (inp : PfInput s) (g : LoadInfo s) (st : Nr s) (u : Nat → CV s) : Option (Nr s) := do
  let x := build N inp g.type st.lim.clamped st.pol u (fun _ => false) st.sys
  let lim ← Newton.prepare limTol (limitsInput N inp g) (fun b => (x.pq b).q) st.lim
  let x := build N inp g.type lim.clamped st.pol u (unswitched st.lim lim) x
  some { st with lim := lim, sys := applyPv N lim.ctl st.pol x }

/-- The new unknown of a bus, lines 329-332. -/
def updatePolar (x d : Polar s) : Polar s := ⟨fun p => x.theta p + d.theta p, fun p => x.v p + x.v p * d.v p⟩

/-- The phasor of an unknown, line 335. -/
noncomputable def phasor (x : Polar s) : CV s := fun p => (x.v p : ℂ) * Complex.exp (Complex.I * (x.theta p : ℂ))

/-- One iteration: `prepare_matrix_and_rhs`, `solve_matrix` and `iterate_unknown`, lines 306-349. -/
noncomputable def nrStep (limTol : ℝ) (errTol : Dbl ℝ) (cacheRun : Bool) (N : PfNet s) (inp : PfInput s) (g : LoadInfo s) (st : Nr s)
    (u : Nat → CV s) : Except NrErr (Nr s × (Nat → CV s) × Dbl ℝ) :=
  match prepare limTol N inp g st u with
  | none => .error .unsupported
  | some st => do
    let d ← liftErr (solve N st.perms st.sys)
    let pol := fun b => updatePolar (st.pol b) (d b)
    let u' := fun b => phasor (pol b)
    let r := Newton.iterateUnknown errTol cacheRun (maxDev 0 ((List.range N.T.nBus).map fun b => voltageDev (u b) (u' b))) st.lim
    .ok ({ st with lim := r.1, pol := pol }, u', r.2)

/-- The Newton-Raphson method as a derived solver. -/
noncomputable def nrSolver (limTol : ℝ) (errTol : Dbl ℝ) (cacheRun : Bool) (N : PfNet s) (inp : PfInput s) (g : LoadInfo s) :
    Derived (Nr s) (Nat → CV s) NrErr ℝ := ⟨nrInit N inp g, nrStep limTol errTol cacheRun N inp g⟩

end PGM.NewtonPf
