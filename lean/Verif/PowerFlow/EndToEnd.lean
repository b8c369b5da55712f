import Verif.Lu.Props
import Verif.PowerFlow.Linear
import Verif.PowerFlow.Iterate

/-!
# Whole calculations: from the equations over the sparse solver to the results (C16, C17)

Prefix of all paths: `P/` = `/repo/power_grid_model_c/power_grid_model/include/power_grid_model/`. The linear and the iterative current method
with the sparse solver on the structure of the admittance matrix: `P/math_solver/linear_pf_solver.hpp` lines 59-95,
`P/math_solver/iterative_current_pf_solver.hpp` lines 89-163, inside `run_power_flow` of `P/math_solver/iterative_pf_solver.hpp` lines 33-84.

Simplification: exact complex numbers; a division by a zero voltage is zero.
-/

namespace PGM.PowerFlow

open PGM.YBus PGM.Component PGM.Lu

variable {s : Symm}

/-! ## Model -/

/-- The structure given to the sparse solver: `{y_bus.row_indptr_lu(), y_bus.col_indices_lu(), y_bus.lu_diag()}`, `linear_pf_solver.hpp`
line 64, `iterative_current_pf_solver.hpp` line 92. -/
def luPattern (S : YBus.Structure) : Lu.Pattern := ⟨S.rowIndptrLu, S.colIndicesLu, S.diagLu⟩

/-- A vector with the values of a function at the buses. -/
def toVec (N : PfNet s) (f : Nat → CV s) : List (CV s) := (List.range N.T.nBus).map f

/-- `BlockPermArray perm(n_bus)`. -/
def freshPerms (N : PfNet s) : List (BlockPerm s.phases) := List.replicate N.T.nBus ⟨1, 1⟩

/-- The linear method up to the voltages, `linear_pf_solver.hpp` lines 77-84. `perms` is what the permutations were before. -/
noncomputable def linearVoltages (N : PfNet s) (inp : PfInput s) (perms : List (BlockPerm s.phases)) : Except Err (List (CV s)) :=
  factorizeAndSolve (luPattern N.S) false (linearEquations N inp).mat perms (toVec N (linearEquations N inp).rhs)

/-- The linear method, `linear_pf_solver.hpp` lines 67-95. -/
noncomputable def linearPowerFlow (N : PfNet s) (inp : PfInput s) (perms : List (BlockPerm s.phases)) : Except Err (PfOutput s) := do
  let u ← linearVoltages N inp perms
  .ok (pfResult N inp (fun _ => .constY) (fun _ _ => []) fun b => u[b]?.getD 0)

/-- The members of the iterative current solver, `iterative_current_pf_solver.hpp` lines 165-171: the factorised matrix and whether the
parameters have changed since it was built. -/
structure CurrentSolver (s : Symm) where
  changed : Bool
  factors : Option (Factors ℂ s.phases)

/-- `initialize_derived_solver`, lines 95-123; `flat` is the result of `make_flat_start`. -/
noncomputable def currentInit (N : PfNet s) (flat : Nat → CV s) (st : CurrentSolver s) : Except Err (CurrentSolver s × (Nat → CV s)) :=
  if st.changed then do
    let f ← prefactorize (luPattern N.S) false (currentMatrix N).mat (freshPerms N)
    .ok (⟨false, some f⟩, flat)
  else .ok (st, flat)

/-- The deviation of one bus, line 153. -/
noncomputable def voltageDev (u u' : CV s) : Dbl ℝ := .fin ((List.finRange s.phases).foldl (fun m p => max m ‖u' p - u p‖) 0)

/-- One iteration: lines 126-142, 145 and 148-160. -/
noncomputable def currentIteration (N : PfNet s) (inp : PfInput s) (type : Nat → LoadType) (st : CurrentSolver s) (u : Nat → CV s) :
    Except Err (CurrentSolver s × (Nat → CV s) × Dbl ℝ) :=
  match st.factors with
  | none => .error .undefined
  | some f => do
    let x ← solveOnce (luPattern N.S) f none (toVec N (currentEquations N inp type u).rhs)
    .ok (st, fun b => x[b]?.getD 0, maxDev 0 ((List.range N.T.nBus).map fun b => voltageDev (u b) (x[b]?.getD 0)))

/-- The iterative current method as a derived solver. -/
noncomputable def currentSolver (N : PfNet s) (inp : PfInput s) (type : Nat → LoadType) (flat : Nat → CV s) :
    Derived (CurrentSolver s) (Nat → CV s) Err ℝ := ⟨currentInit N flat, currentIteration N inp type⟩

/-! ## Specification -/

/-- The pattern of the factorised matrix is closed under elimination in the order of the buses. -/
def FillClosed (T : Topo) : Prop :=
  ∀ i j k, i < T.nBus → j < T.nBus → k < i → k < j → InLu T i k → InLu T k j → InLu T i j

/-! ## Lemmas -/

theorem connects_symm {b : Option Nat × Option Nat} {r c : Nat} (h : Connects b r c) : Connects b c r := by
  unfold Connects at *
  tauto

theorem inLu_symm {T : Topo} {r c : Nat} (h : InLu T r c) : InLu T c r := by
  rcases h with (h | ⟨b, hb, h⟩) | h | h
  · exact Or.inl (Or.inl h.symm)
  · exact Or.inl (Or.inr ⟨b, hb, connects_symm h⟩)
  · exact Or.inr (Or.inr h)
  · exact Or.inr (Or.inl h)

/-- **C16, the structure of the admittance matrix is one the sparse solver can be used with.** -/
theorem structure_valid {T : Topo} (hv : T.Valid) (hc : FillClosed T) {S : YBus.Structure} (hS : build T = some S) :
    (luPattern S).Valid T.nBus (InLu T) := by
  obtain ⟨S', hS', I⟩ := structure_correct hv
  rw [hS] at hS'
  injection hS' with hS'
  subst hS'
  exact ⟨I.lu, I.diag.1, I.diag.2, fun r c hr h => inLu_range hv hr c h, fun r c _ h => inLu_symm h, hc⟩

open Classical in
/-- The matrix that data on a pattern stand for. -/
noncomputable def matrixOf {K : Type} [RCLike K] {n : Nat} (p : Lu.Pattern) (data : List (Blk K n)) (r c : Nat) : Blk K n :=
  if h : ∃ i, EntryAt p.rowIndptr p.colIndices r c i then data[h.choose]?.getD 0 else 0

theorem entry_unique {n : Nat} {ip cols : List Nat} {pat : Nat → Nat → Prop} (I : IsCsr n ip cols pat) {r c i j : Nat}
    (hi : EntryAt ip cols r c i) (hj : EntryAt ip cols r c j) : i = j := by
  rcases Nat.lt_trichotomy i j with h | h | h
  · have := I.sorted r c i c j hi hj h; omega
  · exact h
  · have := I.sorted r c j c i hj hi h; omega

theorem matrixOf_holds {K : Type} [RCLike K] {n : Nat} {p : Lu.Pattern} {N : Nat} {pat : Nat → Nat → Prop} (hv : p.Valid N pat)
    (data : List (Blk K n))
    (hlen : data.length = p.colIndices.length) : Holds p N pat data (matrixOf p data) := by
  refine ⟨hlen, fun r c i hr hi => ?_, fun r c hr hc h => ?_⟩
  · have hex : ∃ i, EntryAt p.rowIndptr p.colIndices r c i := ⟨i, hi⟩
    unfold matrixOf
    rw [dif_pos hex, entry_unique hv.csr hex.choose_spec hi]
    obtain ⟨a, z, h1, h2, h3, h4, h5⟩ := hi
    have : i < data.length := by rw [hlen]; exact (List.getElem?_eq_some_iff.mp h5).1
    rw [List.getElem?_eq_getElem this]
    rfl
  · unfold matrixOf
    rw [dif_neg]
    intro hex
    exact h ((hv.csr.pattern r hr c).mp hex)

theorem copy_length {N : PfNet s} (hN : N.Valid) : (copyYBus N).length = (luPattern N.S).colIndices.length := by
  obtain ⟨S', hS', I⟩ := structure_correct hN.topo
  rw [hN.structure_] at hS'
  injection hS' with hS'
  rw [← hS'] at I
  unfold copyYBus
  rw [List.length_map, I.map.1]
  rfl

theorem diag_injective {N : PfNet s} (hN : N.Valid) : ∀ b ∈ List.range N.T.nBus, ∀ b' ∈ List.range N.T.nBus,
    N.S.diagLu[b]?.getD 0 = N.S.diagLu[b']?.getD 0 → b = b' := by
  obtain ⟨S', hS', I⟩ := structure_correct hN.topo
  rw [hN.structure_] at hS'
  injection hS' with hS'
  rw [← hS'] at I
  intro b hb b' hb' e
  rw [List.mem_range] at hb hb'
  obtain ⟨k, h1, h2⟩ := I.diag.2 b hb
  obtain ⟨k', h1', h2'⟩ := I.diag.2 b' hb'
  rw [h1, h1'] at e
  change k = k' at e
  subst e
  exact (csr_row_unique I.lu hb hb' h2 h2').1

theorem linear_length {N : PfNet s} (hN : N.Valid) (inp : PfInput s) :
    (linearEquations N inp).mat.length = (luPattern N.S).colIndices.length := by
  have := (bus_loop (linear_step N inp) (List.range N.T.nBus) List.nodup_range (diag_injective hN) ⟨copyYBus N, fun _ => 0⟩).1
  exact this.trans (copy_length hN)

theorem current_length {N : PfNet s} (hN : N.Valid) : (currentMatrix N).mat.length = (luPattern N.S).colIndices.length := by
  have := (bus_loop (current_step N) (List.range N.T.nBus) List.nodup_range (diag_injective hN) ⟨copyYBus N, fun _ => 0⟩).1
  exact this.trans (copy_length hN)

theorem luRow_eq {N : PfNet s} (hN : N.Valid) (e : Lin s) (hc : FillClosed N.T)
    (hlen : e.mat.length = (luPattern N.S).colIndices.length) {r : Nat} (hr : r < N.T.nBus) (u : Nat → CV s) :
    luRow N e.mat u r = ∑ c ∈ Finset.range N.T.nBus, dot s (matrixOf (luPattern N.S) e.mat r c) (u c) := by
  have hv := structure_valid hN.topo hc hN.structure_
  have hh := matrixOf_holds hv e.mat hlen
  exact csr_row hv.csr r hr (fun c hc => hv.range r c hr hc) e.mat (matrixOf (luPattern N.S) e.mat r)
    (fun c k hk => hh.entry r c k hr hk)
    (fun c hcn => by
      unfold matrixOf
      rw [dif_neg]
      intro hex
      exact hcn ((hv.csr.pattern r hr c).mp hex)) (dot s) u

/-- A solution of the block system is a solution of the equations. -/
theorem solves_of_system {N : PfNet s} (hN : N.Valid) (hc : FillClosed N.T) (e : Lin s)
    (hlen : e.mat.length = (luPattern N.S).colIndices.length) (x : List (CV s))
    (h : SolvesSystem N.T.nBus (matrixOf (luPattern N.S) e.mat) x (toVec N e.rhs)) : Solves N e (fun b => x[b]?.getD 0) := by
  intro r hr
  rw [luRow_eq hN e hc hlen hr]
  funext t
  have h2 := h.2 r hr t
  have hb : at' (toVec N e.rhs) r t = e.rhs r t := by
    unfold at' toVec
    rw [List.getElem?_map, List.getElem?_range hr]
    rfl
  rw [hb] at h2
  rw [← h2, Finset.sum_apply]
  rfl

/-- A solution of the equations is a solution of the block system. -/
theorem system_of_solves {N : PfNet s} (hN : N.Valid) (hc : FillClosed N.T) (e : Lin s)
    (hlen : e.mat.length = (luPattern N.S).colIndices.length) (u : Nat → CV s) (h : Solves N e u) :
    SolvesSystem N.T.nBus (matrixOf (luPattern N.S) e.mat) (toVec N u) (toVec N e.rhs) := by
  have hat : ∀ (f : Nat → CV s) r t, r < N.T.nBus → at' (toVec N f) r t = f r t := by
    intro f r t hr
    unfold at' toVec
    rw [List.getElem?_map, List.getElem?_range hr]
    rfl
  refine ⟨by simp [toVec], fun r hr t => ?_⟩
  rw [hat _ _ _ hr, ← h r hr]
  rw [luRow_eq hN e hc hlen hr, Finset.sum_apply]
  unfold product
  apply Finset.sum_congr rfl
  intro c hcr
  have : ∀ p, at' (toVec N u) c p = u c p := fun p => hat u c p (Finset.mem_range.mp hcr)
  simp only [this]
  rfl

theorem luRow_congr {N : PfNet s} (hN : N.Valid) (e : Lin s) (hc : FillClosed N.T)
    (hlen : e.mat.length = (luPattern N.S).colIndices.length) {r : Nat} (hr : r < N.T.nBus) {u v : Nat → CV s}
    (h : ∀ b, b < N.T.nBus → u b = v b) : luRow N e.mat u r = luRow N e.mat v r := by
  rw [luRow_eq hN e hc hlen hr, luRow_eq hN e hc hlen hr]
  refine Finset.sum_congr rfl fun c hc => ?_
  rw [h c (Finset.mem_range.mp hc)]

/-! ## Properties -/

/-- **C16/C17, the linear method never misbehaves**: it ends with results, or reports a singular matrix. -/
theorem linear_total {N : PfNet s} (hN : N.Valid) (hc : FillClosed N.T) (inp : PfInput s) (perms : List (BlockPerm s.phases))
    (hp : perms.length = N.T.nBus) :
    linearPowerFlow N inp perms = .error .singular ∨ ∃ out, linearPowerFlow N inp perms = .ok out := by
  have hv := structure_valid hN.topo hc hN.structure_
  rcases solve_total hv false _ _ perms (matrixOf_holds hv _ (linear_length hN inp)) hp (toVec N (linearEquations N inp).rhs) (by simp [toVec])
    with h | ⟨x, h, _⟩
  · left
    unfold linearPowerFlow linearVoltages
    rw [h]; rfl
  · right
    unfold linearPowerFlow linearVoltages
    rw [h]; exact ⟨_, rfl⟩

/-- **C17, the linear method from input to results.** When the linear method returns results, its voltages are the only solution of the
network equations, Kirchhoff's law holds at every bus, and every source current is the one that its internal admittance gives. -/
theorem linear_results {N : PfNet s} (hN : N.Valid) (hc : FillClosed N.T) (inp : PfInput s) (perms : List (BlockPerm s.phases))
    (hp : perms.length = N.T.nBus) (out : PfOutput s) (h : linearPowerFlow N inp perms = .ok out) :
    (∀ u, Solves N (linearEquations N inp) u ↔ ∀ b, b < N.T.nBus → u b = out.u b) ∧
    ∀ b, b < N.T.nBus → N.SourcesOk b → (∀ p, out.u b p ≠ 0) →
      Kirchhoff N out b ∧ ∀ k, N.sourceBus[k]? = some b → (out.source k).cur = physicalSource N inp (out.u b) k := by
  have hv := structure_valid hN.topo hc hN.structure_
  have hh := matrixOf_holds hv _ (linear_length hN inp)
  have hrhs : (toVec N (linearEquations N inp).rhs).length = N.T.nBus := by simp [toVec]
  unfold linearPowerFlow at h
  cases hx : linearVoltages N inp perms with
  | error e => rw [hx] at h; exact absurd h (by simp [bind, Except.bind])
  | ok x =>
    rw [hx] at h
    simp only [bind, Except.bind] at h
    injection h with h
    have hsys := factorizeAndSolve_exact hv _ _ perms hh hp _ x hrhs hx
    have hsol := solves_of_system hN hc _ (linear_length hN inp) x hsys
    have hu : out.u = fun b => x[b]?.getD 0 := by
      rw [← h]
      exact (pfResult_bus N inp _ _ (no_alloc N) _ 0 hN.topo.nonempty).1
    refine ⟨fun u => ⟨fun hu' b hb => ?_, fun hu' => ?_⟩, fun b hb hok h0 => ?_⟩
    · have huniq : ∀ y z, SolvesSystem N.T.nBus (matrixOf (luPattern N.S) (linearEquations N inp).mat) y (toVec N (linearEquations N inp).rhs) →
          SolvesSystem N.T.nBus (matrixOf (luPattern N.S) (linearEquations N inp).mat) z (toVec N (linearEquations N inp).rhs) → y = z := by
        unfold linearVoltages factorizeAndSolve at hx
        cases hf : prefactorize (luPattern N.S) false (linearEquations N inp).mat perms with
        | error e => rw [hf] at hx; exact absurd hx (by simp [bind, Except.bind])
        | ok f => exact (solve_exact hv _ _ perms hh hp f hf _ _ hrhs hrhs).2.2
      have e := huniq _ _ (system_of_solves hN hc _ (linear_length hN inp) u hu') hsys
      rw [hu, ← e]
      simp [toVec, hb]
    · intro r hr
      have := hsol r hr
      rw [← hu] at this
      rw [← this]
      exact luRow_congr hN (linearEquations N inp) hc (linear_length hN inp) hr hu'
    · have h0' : ∀ p, (fun b => x[b]?.getD 0 : Nat → CV s) b p ≠ 0 := by rw [← hu]; exact h0
      have := linear_kirchhoff hN inp _ hsol b hb hok h0'
      rw [hu, ← h]
      exact this

/-- What one iteration of the iterative current method does once the matrix has been factorised. -/
theorem currentIteration_ok {N : PfNet s} (hN : N.Valid) (hc : FillClosed N.T) (inp : PfInput s) (type : Nat → LoadType)
    {f : Factors ℂ s.phases} (hf : prefactorize (luPattern N.S) false (currentMatrix N).mat (freshPerms N) = .ok f)
    {st : CurrentSolver s} (hst : st.factors = some f) (u : Nat → CV s) :
    ∃ u', currentIteration N inp type st u = .ok (st, u', maxDev 0 ((List.range N.T.nBus).map fun b => voltageDev (u b) (u' b))) ∧
      Solves N (currentEquations N inp type u) u' := by
  have hv := structure_valid hN.topo hc hN.structure_
  have hm : (currentEquations N inp type u).mat = (currentMatrix N).mat := (currentEquations_eq N inp type u 0 hN.topo.nonempty).1
  have hlen : (currentEquations N inp type u).mat.length = (luPattern N.S).colIndices.length := by rw [hm]; exact current_length hN
  obtain ⟨_, ⟨y, hy, hs⟩, _⟩ := solve_exact hv _ _ (freshPerms N) (matrixOf_holds hv _ (current_length hN)) (by simp [freshPerms]) f hf
    (toVec N (currentEquations N inp type u).rhs) (toVec N (currentEquations N inp type u).rhs) (by simp [toVec]) (by simp [toVec])
  rw [← hm] at hs
  refine ⟨fun b => y[b]?.getD 0, ?_, solves_of_system hN hc _ hlen y hs⟩
  unfold currentIteration
  rw [hst]
  simp only [hy]
  rfl

theorem voltageDev_bound {u u' : CV s} {x t : ℝ} (h : voltageDev u u' = .fin x) (hx : x ≤ t) (p : Fin s.phases) : ‖u' p - u p‖ ≤ t := by
  unfold voltageDev at h
  injection h with h
  rw [← h] at hx
  refine le_trans ?_ hx
  have key : ∀ (l : List (Fin s.phases)) (m : ℝ), m ≤ l.foldl (fun m p => max m ‖u' p - u p‖) m ∧
      ∀ p ∈ l, ‖u' p - u p‖ ≤ l.foldl (fun m p => max m ‖u' p - u p‖) m := by
    intro l
    induction l with
    | nil => intro m; simp
    | cons a l ih =>
      intro m
      simp only [List.foldl_cons]
      obtain ⟨i1, i2⟩ := ih (max m ‖u' a - u a‖)
      refine ⟨(le_max_left _ _).trans i1, fun p hp => ?_⟩
      rcases List.mem_cons.mp hp with rfl | hp
      · exact (le_max_right _ _).trans i1
      · exact i2 p hp
  exact (key _ 0).2 p (List.mem_finRange p)

/-- **C16/C17, the iterative current method never misbehaves**: with a fresh solver it ends with a singular matrix, with a divergence error,
or with results (or is still running). -/
theorem current_total {N : PfNet s} (hN : N.Valid) (hc : FillClosed N.T) (inp : PfInput s) (type : Nat → LoadType) (flat : Nat → CV s)
    (self : CurrentSolver s) (hself : self.changed = true) (tol : Dbl ℝ) (maxIter : Int) (fuel : Nat) :
    ∀ e, (runPowerFlow (currentSolver N inp type flat) tol maxIter fuel self).2 = .error (.solver e) →
      e = .singular ∧ prefactorize (luPattern N.S) false (currentMatrix N).mat (freshPerms N) = .error .singular := by
  have hv := structure_valid hN.topo hc hN.structure_
  have hh := matrixOf_holds hv _ (current_length hN)
  intro e he
  unfold runPowerFlow at he
  simp only at he
  have hinit : (currentSolver N inp type flat).init self = currentInit N flat self := rfl
  rw [hinit] at he
  unfold currentInit at he
  rw [if_pos hself] at he
  rcases prefactorize_good hv false _ _ (freshPerms N) hh.zero hh.rep (by simp [freshPerms]) with h | ⟨f, h, _⟩
  · rw [h] at he
    simp only [bind, Except.bind] at he
    injection he with he
    injection he with he
    exact ⟨he.symm, h⟩
  · exfalso
    rw [h] at he
    simp only [bind, Except.bind] at he
    have key : ∀ (fuel : Nat) (n : Int) (dev : Dbl ℝ) (st : CurrentSolver s) (u : Nat → CV s), st.factors = some f →
        pfLoop (currentSolver N inp type flat) tol maxIter fuel n dev st u ≠ .error (.solver e) := by
      intro fuel
      induction fuel with
      | zero => intro n dev st u _; simp [pfLoop]
      | succ fuel ih =>
        intro n dev st u hst
        obtain ⟨u', h1, _⟩ := currentIteration_ok hN hc inp type h hst u
        have h1' : (currentSolver N inp type flat).step st u = _ := h1
        unfold pfLoop
        rw [h1']
        split_ifs
        · simp
        · exact ih _ _ _ _ hst
        · simp
    exact key fuel 0 .inf _ flat rfl he

/-- All iterations use the same factors, and the last one solved its equations. -/
theorem current_run {N : PfNet s} (hN : N.Valid) (hc : FillClosed N.T) (inp : PfInput s) (type : Nat → LoadType) (flat : Nat → CV s) (t : ℝ)
    {f : Factors ℂ s.phases} (hf : prefactorize (luPattern N.S) false (currentMatrix N).mat (freshPerms N) = .ok f) :
    ∀ m st0 u0 st u prev dev, Iterations (currentSolver N inp type flat) (.fin t) m st0 u0 st u prev dev → st0.factors = some f →
        st.factors = some f ∧ Solves N (currentEquations N inp type prev) u := by
  intro m st0 u0 st u prev dev hi hst
  induction hi with
  | @one stA uA stB uB devB hs =>
    obtain ⟨u', e1, e2⟩ := currentIteration_ok hN hc inp type hf hst uA
    change currentIteration N inp type stA uA = _ at hs
    rw [hs] at e1
    injection e1 with e1
    obtain ⟨rfl, rfl, _⟩ := by simpa using e1
    exact ⟨hst, e2⟩
  | @more n st0 u0 stA uA prevA devA stB uB devB _ _ hs ih =>
    have ih := ih hst
    obtain ⟨u', e1, e2⟩ := currentIteration_ok hN hc inp type hf ih.1 uA
    change currentIteration N inp type stA uA = _ at hs
    rw [hs] at e1
    injection e1 with e1
    obtain ⟨rfl, rfl, _⟩ := by simpa using e1
    exact ⟨ih.1, e2⟩

/-- **C17, the iterative current method from input to results.** When the method reports convergence with tolerance `t`, the voltages solve
the linearised equations of the iteration before, no voltage changed by more than `t`, and at every bus without sources whose voltages are at
least `m + t`, Kirchhoff's law is met by the results up to an error proportional to `t`. -/
theorem current_results {N : PfNet s} (hN : N.Valid) (hc : FillClosed N.T) (inp : PfInput s) (type : Nat → LoadType) (flat : Nat → CV s)
    (self : CurrentSolver s) (hself : self.changed = true) (t : ℝ) (maxIter : Int) (fuel : Nat) (st : CurrentSolver s) (u : Nat → CV s)
    (n : Int) (h : (runPowerFlow (currentSolver N inp type flat) (.fin t) maxIter fuel self).2 = .ok st u n) :
    (∃ prev, Solves N (currentEquations N inp type prev) u ∧ ∀ b, b < N.T.nBus → ∀ p, ‖u b p - prev b p‖ ≤ t) ∧
    ∀ b, b < N.T.nBus → b ∉ N.sourceBus → ∀ m, 0 < m → (∀ p, m + t ≤ ‖u b p‖) → ∀ p,
      let out := pfResult N inp type (fun _ _ => []) u
      ‖(intoBranches N.T (out.branch.map fun x => (x.iF, x.iT)) b - fromShunts N.T (out.shunt.map (·.cur)) b -
        atBus N.loadBus (fun k => (out.load k).cur) b) p‖ ≤
        (N.loadBus.zipIdx.map fun x => if x.1 = b then changeBound (type x.2) (inp.sInj x.2 p) m t else 0).sum := by
  have hstep : ∀ st u st' u' dev, (currentSolver N inp type flat).step st u = .ok (st', u', dev) →
      dev = maxDev 0 ((List.range N.T.nBus).map fun b => voltageDev (u b) (u' b)) ∨ dev = .inf := by
    intro st u st' u' dev hs
    left
    change currentIteration N inp type st u = _ at hs
    unfold currentIteration at hs
    cases hst : st.factors with
    | none => rw [hst] at hs; exact absurd hs (by simp)
    | some f =>
      rw [hst] at hs
      simp only at hs
      cases hx : solveOnce (luPattern N.S) f none (toVec N (currentEquations N inp type u).rhs) with
      | error e => rw [hx] at hs; exact absurd hs (by simp [bind, Except.bind])
      | ok x =>
        rw [hx] at hs
        simp only [bind, Except.bind] at hs
        injection hs with hs
        obtain ⟨_, rfl, rfl⟩ := by simpa using hs
        rfl
  obtain ⟨st0, u0, prev, dev, m, h1, _, h3, h4⟩ := converged_changes_small_partial N.T.nBus (fun a b => voltageDev b a) 0 t
    (currentSolver N inp type flat) hstep (fun a b e => by cases e) maxIter fuel self st u n h
  -- the factors
  change currentInit N flat self = _ at h1
  unfold currentInit at h1
  rw [if_pos hself] at h1
  cases hf : prefactorize (luPattern N.S) false (currentMatrix N).mat (freshPerms N) with
  | error e => rw [hf] at h1; exact absurd h1 (by simp [bind, Except.bind])
  | ok f =>
    rw [hf] at h1
    simp only [bind, Except.bind] at h1
    injection h1 with h1
    obtain ⟨hst0, _⟩ := by simpa using h1
    have key := current_run hN hc inp type flat t hf
    have hs := (key _ _ _ _ _ _ _ h3 (by rw [← hst0])).2
    have hd : ∀ b, b < N.T.nBus → ∀ p, ‖u b p - prev b p‖ ≤ t := by
      intro b hb p
      obtain ⟨x, e1, e2⟩ := h4 b hb
      exact voltageDev_bound e1 e2 p
    refine ⟨⟨prev, hs, hd⟩, fun b hb hsrc m hm hu p => ?_⟩
    have ht : 0 ≤ t := (norm_nonneg _).trans (hd b hb p)
    refine iterative_kirchhoff_bound hN inp type prev u hs b hb hsrc m t hm (fun p => ?_) (fun p => ?_) (hd b hb) p
    · have e1 := hu p
      have e2 := hd b hb p
      have e3 : ‖u b p‖ ≤ ‖u b p - prev b p‖ + ‖prev b p‖ := by
        calc ‖u b p‖ = ‖(u b p - prev b p) + prev b p‖ := by rw [sub_add_cancel]
          _ ≤ _ := norm_add_le _ _
      linarith
    · have := hu p
      linarith

/-! ## A case that meets the hypotheses -/

theorem exNet_valid {S : YBus.Structure} (hS : build exTopo2 = some S) : (exNet S).Valid :=
  ⟨exTopo2_valid, hS, ⟨_, _, [], rfl⟩, by simp [exNet, exTopo2], by simp [exNet, exTopo2]⟩

theorem exTopo2_closed : FillClosed exTopo2 := by
  intro i j k hi hj hk hk' _ _
  have hi' : i < 2 := hi
  have hj' : j < 2 := hj
  exact Or.inl (Or.inl (by omega))

theorem exNet_row {S : YBus.Structure} (hS : build exTopo2 = some S) (u : Nat → CV .sym) :
    luRow (exNet S) (linearEquations (exNet S) exInput2).mat u 0 (0 : Fin 1) = 3 * u 0 (0 : Fin 1) - u 1 (0 : Fin 1) ∧
    luRow (exNet S) (linearEquations (exNet S) exInput2).mat u 1 (0 : Fin 1) = 2 * u 1 (0 : Fin 1) - u 0 (0 : Fin 1) := by
  have hv := exNet_valid hS
  have hp : (exNet S).y.param = exParam2 := (coherent_updateAdmittance S _ exParam2).2
  have hd : ∀ (m : CM .sym) (v : CV .sym), dot .sym m v (0 : Fin 1) = m (0 : Fin 1) (0 : Fin 1) * v (0 : Fin 1) := by
    intro m v
    show ∑ q : Fin 1, m (0 : Fin 1) q * v q = _
    simp
  have o1 : onBus [0, 0] 0 = [0, 1] := by decide
  have o2 : onBus [0, 0] 1 = [] := by decide
  have o3 : onBus [1] 0 = [] := by decide
  have o4 : onBus [1] 1 = [0] := by decide
  have row : ∀ r, r < 2 → luRow (exNet S) (linearEquations (exNet S) exInput2).mat u r (0 : Fin 1) =
      nodal exTopo2 exParam2 r 0 (0 : Fin 1) (0 : Fin 1) * u 0 (0 : Fin 1) + nodal exTopo2 exParam2 r 1 (0 : Fin 1) (0 : Fin 1) * u 1 (0 : Fin 1) +
      (((onBus [1] r).map fun k => Matrix.diagonal (-(star (exInput2.sInj k)))).sum +
        ((onBus [0, 0] r).map fun k => yRef .sym 1 1).sum) (0 : Fin 1) (0 : Fin 1) * u r (0 : Fin 1) := by
    intro r hr
    obtain ⟨r1, _⟩ := row_eq hv (linear_step (exNet S) exInput2) (fun _ => 0) u r hr
    unfold linearEquations
    rw [r1, show busCurrent (exNet S).S (exNet S).y (dot .sym) u r = _ from
      busCurrent_eq exTopo2_valid hS (coherent_of_valid hv) (dot .sym) u r hr, hp]
    show (∑ c ∈ Finset.range 2, dot .sym (nodal exTopo2 exParam2 r c) (u c) +
      dot .sym (((onBus [1] r).map fun k => Matrix.diagonal (-(star (exInput2.sInj k)))).sum +
        ((onBus [0, 0] r).map fun k => yRef .sym 1 1).sum) (u r)) (0 : Fin 1) = _
    simp only [Finset.sum_range_succ, Finset.sum_range_zero, zero_add, Pi.add_apply]
    rw [← hd, ← hd, ← hd]
    rfl
  constructor
  · rw [row 0 (by omega), o1, o3]
    have e : nodal exTopo2 exParam2 0 0 (0 : Fin 1) (0 : Fin 1) = 1 := by
      simp [nodal, exTopo2, branchTerm, exParam2]
      change (1 : ℂ) + 0 = 1
      norm_num
    have e' : nodal exTopo2 exParam2 0 1 (0 : Fin 1) (0 : Fin 1) = -1 := by
      simp [nodal, exTopo2, branchTerm, exParam2]
      change (0 : ℂ) + -1 = -1
      norm_num
    rw [e, e']
    simp only [List.map_nil, List.sum_nil, List.map_cons, List.sum_cons, zero_add, add_zero]
    change (1 : ℂ) * _ + -1 * _ + (1 + 1) * _ = _
    ring
  · rw [row 1 (by omega), o2, o4]
    have e : nodal exTopo2 exParam2 1 0 (0 : Fin 1) (0 : Fin 1) = -1 := by
      simp [nodal, exTopo2, branchTerm, exParam2]
      change (0 : ℂ) + -1 = -1
      norm_num
    have e' : nodal exTopo2 exParam2 1 1 (0 : Fin 1) (0 : Fin 1) = 1 := by
      simp [nodal, exTopo2, branchTerm, exParam2]
      change (0 : ℂ) + 1 = 1
      norm_num
    rw [e, e']
    simp only [List.map_nil, List.sum_nil, List.map_cons, List.sum_cons, zero_add, add_zero]
    have hdiag : (Matrix.diagonal (-star fun _ : Fin 1 => (-1 : ℂ))) 0 0 = 1 := by simp
    change (-1 : ℂ) * _ + 1 * _ + (Matrix.diagonal (-star fun _ : Fin 1 => (-1 : ℂ))) 0 0 * _ = _
    rw [hdiag]
    ring

/-- The linear method returns results for the example, and they are the exact solution. -/
example : ∃ S, build exTopo2 = some S ∧ (exNet S).Valid ∧ FillClosed (exNet S).T ∧ (∀ b, b < 2 → (exNet S).SourcesOk b) ∧
    ∃ out, linearPowerFlow (exNet S) exInput2 (freshPerms (exNet S)) = .ok out ∧ out.u 0 (0 : Fin 1) = 2 ∧ out.u 1 (0 : Fin 1) = 1 := by
  obtain ⟨S, hS, hN, hsol, hok, _⟩ := exNet_case
  refine ⟨S, hS, hN, exTopo2_closed, fun b _ => hok b, ?_⟩
  have hc : FillClosed (exNet S).T := exTopo2_closed
  have hlen := linear_length hN exInput2
  have hv := structure_valid hN.topo hc hN.structure_
  have hh := matrixOf_holds hv _ hlen
  set e := linearEquations (exNet S) exInput2 with he
  have row : ∀ (u : Nat → CV .sym) (r : Nat), r < 2 → luRow (exNet S) e.mat u r (0 : Fin 1) =
      matrixOf (luPattern S) e.mat r 0 (0 : Fin 1) (0 : Fin 1) * u 0 (0 : Fin 1) +
      matrixOf (luPattern S) e.mat r 1 (0 : Fin 1) (0 : Fin 1) * u 1 (0 : Fin 1) := by
    intro u r hr
    rw [luRow_eq hN e hc hlen hr]
    show (∑ c ∈ Finset.range 2, dot .sym (matrixOf (luPattern S) e.mat r c) (u c)) (0 : Fin 1) = _
    have hd : ∀ (m : CM .sym) (v : CV .sym), dot .sym m v (0 : Fin 1) = m (0 : Fin 1) (0 : Fin 1) * v (0 : Fin 1) := by
      intro m v
      show ∑ q : Fin 1, m (0 : Fin 1) q * v q = _
      simp
    simp only [Finset.sum_range_succ, Finset.sum_range_zero, zero_add, Pi.add_apply]
    rw [← hd, ← hd]
    rfl
  have hp : (freshPerms (exNet S)).length = (exNet S).T.nBus := List.length_replicate
  have hacc : ∃ f, prefactorize (luPattern S) false e.mat (freshPerms (exNet S)) = .ok f := by
    refine (scalar_accepted_iff hv (matrixOf (luPattern S) e.mat) e.mat (freshPerms (exNet S)) hh hp).mpr ?_
    intro k hk z hz c hck
    have hk : k = 0 ∨ k = 1 ∨ k = 2 := by
      have : k ≤ 2 := hk
      omega
    rcases hk with rfl | rfl | rfl
    · omega
    · have h0 := hz 0 (by omega)
      rw [Finset.sum_range_one] at h0
      have h1 := row (fun b _ => if b = 0 then z 0 else 0) 0 (by omega)
      rw [(exNet_row hS _).1] at h1
      simp only [if_true, one_ne_zero, if_false, mul_zero, add_zero, sub_zero] at h1
      have : c = 0 := by omega
      subst this
      have h3 : (3 : ℂ) * z 0 = 0 := h1.trans h0
      simpa using h3
    · have h0 := hz 0 (by omega)
      have h1 := hz 1 (by omega)
      rw [Finset.sum_range_succ, Finset.sum_range_one] at h0 h1
      have r0 := row (fun b _ => z b) 0 (by omega)
      have r1 := row (fun b _ => z b) 1 (by omega)
      rw [(exNet_row hS _).1] at r0
      rw [(exNet_row hS _).2] at r1
      have e0 : 3 * z 0 - z 1 = 0 := r0.trans h0
      have e1 : 2 * z 1 - z 0 = 0 := r1.trans h1
      have : c = 0 ∨ c = 1 := by omega
      rcases this with rfl | rfl
      · linear_combination (2 / 5 : ℂ) * e0 + (1 / 5 : ℂ) * e1
      · linear_combination (1 / 5 : ℂ) * e0 + (3 / 5 : ℂ) * e1
  rcases linear_total hN hc exInput2 (freshPerms (exNet S)) hp with h | ⟨out, h⟩
  · exfalso
    obtain ⟨f, hf⟩ := hacc
    unfold linearPowerFlow linearVoltages factorizeAndSolve at h
    have hf' : prefactorize (luPattern (exNet S).S) false (linearEquations (exNet S) exInput2).mat (freshPerms (exNet S)) = .ok f := hf
    rw [hf'] at h
    simp only [bind, Except.bind] at h
    rw [prefactorize_flag hv _ _ (freshPerms (exNet S)) hh.zero hh.rep hp f hf, if_neg (by simp)] at h
    obtain ⟨_, ⟨y, hy, _⟩, _⟩ := solve_exact hv _ _ (freshPerms (exNet S)) hh hp f hf
      (toVec (exNet S) e.rhs) (toVec (exNet S) e.rhs) (by simp [toVec]) (by simp [toVec])
    rw [hy] at h
    exact absurd h (by simp)
  · refine ⟨out, h, ?_⟩
    have hr := ((linear_results hN hc exInput2 (freshPerms (exNet S)) hp out h).1 exVoltage).mp hsol
    exact ⟨(congrFun (hr 0 (by show 0 < 2; omega)) (0 : Fin 1)).symm, (congrFun (hr 1 (by show 1 < 2; omega)) (0 : Fin 1)).symm⟩

end PGM.PowerFlow
