import Verif.Newton.Props
import Verif.Lu.Accept

/-!
# A grid on which the Newton-Raphson power flow converges, and one on which it converges to voltages that are no solution (C54)
-/

namespace PGM.NewtonPf

open PGM.YBus PGM.Lu PGM.PowerFlow PGM.Component

/-- The only phase of a symmetric calculation. -/
abbrev o : Fin Symm.sym.phases := (0 : Fin 1)

/-- A pair of an angle and a magnitude. -/
def pair (θ v : ℝ) : Polar .sym := ⟨fun _ => θ, fun _ => v⟩

theorem pair_cplx (θ v : ℝ) (p : Fin Symm.sym.phases) : (pair θ v).cplx p = (v : ℂ) + (θ : ℂ) * Complex.I := by
  unfold pair Polar.cplx
  apply Complex.ext <;> simp

theorem join_pair (θ v : ℝ) : (show Fin 2 → ℝ from join (n := 1) (fun _ => θ) (fun _ => v)) = ![θ, v] := by
  funext i
  fin_cases i <;> rfl

theorem real_entries (B : Blk ℝ 2) {a b c d : ℝ} (h : ∀ x y : ℝ, B.mulVec ![x, y] = ![a * x + b * y, c * x + d * y]) :
    B 0 0 = a ∧ B 0 1 = b ∧ B 1 0 = c ∧ B 1 1 = d := by
  have h1 := h 1 0
  have h2 := h 0 1
  have e : ∀ (v : Fin 2 → ℝ) i, B.mulVec v i = B i 0 * v 0 + B i 1 * v 1 := fun v i => by
    simp [Matrix.mulVec, dotProduct, Fin.sum_univ_two]
  have g1 := fun i => congrFun h1 i
  have g2 := fun i => congrFun h2 i
  simp only [e] at g1 g2
  refine ⟨?_, ?_, ?_, ?_⟩
  · simpa using g1 0
  · simpa using g2 0
  · simpa using g1 1
  · simpa using g2 1

/-- A real block that the sparse solver accepts. -/
theorem real_accepted (B : Blk ℝ 2) {a b c d : ℝ} (m : ℝ) (h : ∀ x y : ℝ, B.mulVec ![x, y] = ![a * x + b * y, c * x + d * y])
    (ha : |a| ≤ m) (hb : |b| ≤ m) (hc : |c| ≤ m) (hd : |d| ≤ m) (h0 : 0 < |a * d - b * c|) (hdet : machineEps * m ^ 2 ≤ |a * d - b * c|)
    (flag : Bool) : factorizeBlock 0 false B flag ≠ none := by
  obtain ⟨e1, e2, e3, e4⟩ := real_entries B h
  refine factorize_two B flag m ?_ ?_ ?_
  · intro i j
    fin_cases i <;> fin_cases j
    · show ‖B 0 0‖ ≤ m
      rw [e1]; exact ha
    · show ‖B 0 1‖ ≤ m
      rw [e2]; exact hb
    · show ‖B 1 0‖ ≤ m
      rw [e3]; exact hc
    · show ‖B 1 1‖ ≤ m
      rw [e4]; exact hd
  · rw [e1, e2, e3, e4]
    exact abs_pos.mp h0
  · rw [e1, e2, e3, e4]
    exact hdet

/-- A complex number with the two rows of a real block. -/
def rows (a b c d θ v : ℝ) : ℂ := ⟨a * θ + b * v, c * θ + d * v⟩

/-- On a net of two buses the sparse solver succeeds when both pivots are accepted; `e` eliminates the first bus. -/
theorem two_solve {N : PfNet .sym} (hN : N.Valid) (hT : N.T = exTopo2) {x : Sys .sym} {W : Nat → Nat → CV .sym → CV .sym} (hW : Acts N x W)
    (perms : List (BlockPerm (Symm.sym.phases + Symm.sym.phases))) (hp : perms.length = 2) (m a b c d a' b' c' d' : ℝ) (e : ℝ → ℝ → Polar .sym)
    (h00 : ∀ θ v, W 0 0 (pair θ v).cplx o = rows a b c d θ v)
    (h01 : ∀ θ v, W 0 0 (e θ v).cplx o + W 0 1 (pair θ v).cplx o = 0)
    (h11 : ∀ θ v, W 1 0 (e θ v).cplx o + W 1 1 (pair θ v).cplx o = rows a' b' c' d' θ v)
    (hb : |a| ≤ m ∧ |b| ≤ m ∧ |c| ≤ m ∧ |d| ≤ m ∧ |a'| ≤ m ∧ |b'| ≤ m ∧ |c'| ≤ m ∧ |d'| ≤ m)
    (h0 : 0 < |a * d - b * c| ∧ machineEps * m ^ 2 ≤ |a * d - b * c|) (h1 : 0 < |a' * d' - b' * c'| ∧ machineEps * m ^ 2 ≤ |a' * d' - b' * c'|) :
    ∃ y, solve N perms x = .ok y := by
  have hc : FillClosed N.T := by rw [hT]; exact exTopo2_closed
  have hn : N.T.nBus = 2 := by rw [hT]; rfl
  have hv := structure_valid hN.topo hc hN.structure_
  have hA := acts_holds hN hc hW.1
  set A := matrixOf (luPattern N.S) (x.jac.map Jac.toBlk) with hAdef
  have hact : ∀ r c, r < 2 → ∀ d : Polar .sym, (show Fin 2 → ℝ from (A r c).mulVec (join d.theta d.v)) =
      ![(W r c d.cplx o).re, (W r c d.cplx o).im] := by
    intro r c hr d
    obtain ⟨e1, e2⟩ := acts_matrix hN hW (r := r) (c := c) (by rw [hn]; exact hr) d o
    funext i
    fin_cases i
    · exact e1
    · exact e2
  have hjoin : ∀ θ v, (show Fin 2 → ℝ from join (pair θ v).theta (pair θ v).v) = ![θ, v] := join_pair
  obtain ⟨f, hf⟩ : ∃ f, prefactorize (luPattern N.S) false (x.jac.map Jac.toBlk) perms = .ok f := by
    refine block_accepted hv A _ perms hA (by rw [hp, hn]) ?_
    intro k hk B hB flag
    have hk' : k = 0 ∨ k = 1 := by
      rw [hn] at hk
      omega
    rcases hk' with rfl | rfl
    · refine real_accepted (show Blk ℝ 2 from B) (a := a) (b := b) (c := c) (d := d) m (fun θ v => ?_) hb.1 hb.2.1 hb.2.2.1 hb.2.2.2.1 h0.1 h0.2 flag
      have := hB (fun _ => join (pair θ v).theta (pair θ v).v) (fun r hr => absurd hr (by omega))
      rw [Finset.sum_range_one] at this
      rw [← hjoin]
      refine this.symm.trans ((hact 0 0 (by omega) (pair θ v)).trans ?_)
      rw [h00]
      rfl
    · refine real_accepted (show Blk ℝ 2 from B) (a := a') (b := b') (c := c') (d := d') m (fun θ v => ?_) hb.2.2.2.2.1 hb.2.2.2.2.2.1
        hb.2.2.2.2.2.2.1 hb.2.2.2.2.2.2.2 h1.1 h1.2 flag
      have := hB (fun c => if c = 0 then join (e θ v).theta (e θ v).v else join (pair θ v).theta (pair θ v).v) (fun r hr => ?_)
      · rw [Finset.sum_range_succ, Finset.sum_range_one] at this
        rw [← hjoin]
        refine this.symm.trans ((congrArg₂ (· + ·) (hact 1 0 (by omega) (e θ v)) (hact 1 1 (by omega) (pair θ v))).trans ?_)
        have h := h11 θ v
        rw [Complex.ext_iff] at h
        funext i
        fin_cases i
        · exact h.1
        · exact h.2
      · have : r = 0 := by omega
        subst this
        rw [Finset.sum_range_succ, Finset.sum_range_one]
        refine (congrArg₂ (· + ·) (hact 0 0 (by omega) (e θ v)) (hact 0 1 (by omega) (pair θ v))).trans ?_
        have h := h01 θ v
        rw [Complex.ext_iff] at h
        funext i
        fin_cases i
        · exact h.1
        · exact h.2
  rcases solve_total' hN hc hW.1 perms (by rw [hp, hn]) with h | h
  · exfalso
    unfold solve factorizeAndSolve at h
    rw [hf] at h
    simp only [bind, Except.bind] at h
    rw [prefactorize_flag hv _ _ perms hA.zero hA.rep (by rw [hp, hn]) f hf, if_neg (by simp)] at h
    obtain ⟨_, ⟨y, hy, _⟩, _⟩ := solve_exact hv _ _ perms hA (by rw [hp, hn]) f hf (rhsList N x) (rhsList N x) (rhsList_length N x) (rhsList_length N x)
    unfold rhsList at hy
    rw [hy] at h
    exact absurd h (by simp)
  · exact h

/-! ## The grid -/

/-- One source at bus 0, a line to bus 1 and two loads there. -/
noncomputable def nrNet (S : YBus.Structure) : PfNet .sym where
  T := exTopo2
  S := S
  y := updateAdmittance S ⟨[], exParam2, fun _ => [], fun _ => []⟩ exParam2
  sourceBus := [0]
  loadBus := [1, 1]
  y1 _ := 1
  y0 _ := 1

/-- The first load has the constant power `i σ`, the second is a constant impedance with power `ρ - i σ` at voltage 1. -/
noncomputable def nrInput (U ρ σ : ℝ) : PfInput .sym where
  source _ := (U : ℂ)
  sInj k := fun _ => if k = 0 then ⟨0, σ⟩ else ⟨ρ, -σ⟩

/-- No regulators. -/
def nrInfo : LoadInfo .sym where
  type k := if k = 0 then .constPq else .constY
  on _ := true
  regs _ := []

theorem nrNet_valid {S : YBus.Structure} (hS : YBus.build exTopo2 = some S) : (nrNet S).Valid :=
  ⟨exTopo2_valid, hS, ⟨_, _, [], rfl⟩, by simp [nrNet, exTopo2], by simp [nrNet, exTopo2]⟩

theorem nrInfo_one : OneRegulator nrInfo := fun _ => by simp [nrInfo]

theorem nodal_values (S : YBus.Structure) : nodal (nrNet S).T (nrNet S).y.param 0 0 o o = 1 ∧
    nodal (nrNet S).T (nrNet S).y.param 0 1 o o = -1 ∧
    nodal (nrNet S).T (nrNet S).y.param 1 0 o o = -1 ∧
    nodal (nrNet S).T (nrNet S).y.param 1 1 o o = 1 := by
  have hp : (nrNet S).y.param = exParam2 := (coherent_updateAdmittance S _ exParam2).2
  rw [hp]
  show nodal exTopo2 exParam2 0 0 o o = 1 ∧ nodal exTopo2 exParam2 0 1 o o = -1 ∧
    nodal exTopo2 exParam2 1 0 o o = -1 ∧ nodal exTopo2 exParam2 1 1 o o = 1
  refine ⟨?_, ?_, ?_, ?_⟩
  · simp [nodal, exTopo2, branchTerm, exParam2]
    change (1 : ℂ) + 0 = 1
    norm_num
  · simp [nodal, exTopo2, branchTerm, exParam2]
    change (0 : ℂ) + -1 = -1
    norm_num
  · simp [nodal, exTopo2, branchTerm, exParam2]
    change (0 : ℂ) + -1 = -1
    norm_num
  · simp [nodal, exTopo2, branchTerm, exParam2]
    change (0 : ℂ) + 1 = 1
    norm_num

theorem dot_one (m : CM .sym) (v : CV .sym) : dot .sym m v o = m o o * v o := by
  show ∑ q : Fin 1, m o q * v q = _
  rw [Fin.sum_univ_one]

theorem flow_one (y : CM .sym) (u w η : CV .sym) : (∑ q, powerFlow y u w o q * star (η q)) =
    u o * star (w o) * star (y o o) * star (η o) := by
  show ∑ q : Fin 1, powerFlow y u w o q * star (η q) = _
  rw [Fin.sum_univ_one]
  rfl

/-- The blocks of the linear start. -/
theorem start_values (S : YBus.Structure) (U ρ σ : ℝ) (η : CV .sym) :
    startAct (nrNet S) (nrInput U ρ σ) nrInfo 0 0 η o = 2 * (Complex.I * star (η o)) ∧
    startAct (nrNet S) (nrInput U ρ σ) nrInfo 0 1 η o = -(Complex.I * star (η o)) ∧
    startAct (nrNet S) (nrInput U ρ σ) nrInfo 1 0 η o = -(Complex.I * star (η o)) ∧
    startAct (nrNet S) (nrInput U ρ σ) nrInfo 1 1 η o = (1 - (ρ : ℂ)) * (Complex.I * star (η o)) := by
  obtain ⟨n1, n2, n3, n4⟩ := nodal_values S
  have l0 : onBus (nrNet S).loadBus 0 = [] := by show onBus [1, 1] 0 = []; decide
  have l1 : onBus (nrNet S).loadBus 1 = [0, 1] := by show onBus [1, 1] 1 = [0, 1]; decide
  have s0 : onBus (nrNet S).sourceBus 0 = [0] := by show onBus [0] 0 = [0]; decide
  have s1 : onBus (nrNet S).sourceBus 1 = [] := by show onBus [0] 1 = []; decide
  unfold startAct
  refine ⟨?_, ?_, ?_, ?_⟩
  · rw [if_pos rfl, l0, s0, Pi.add_apply, dot_one, n1]
    simp only [List.map_nil, List.sum_nil, List.map_cons, List.sum_cons, zero_add, add_zero]
    rw [dot_one]
    show 1 * (Complex.I * star (η o)) + 1 * (Complex.I * star (η o)) = _
    ring
  · rw [if_neg (by decide), add_zero, dot_one, n2]
    ring
  · rw [if_neg (by decide), add_zero, dot_one, n3]
    ring
  · rw [if_pos rfl, l1, s1, Pi.add_apply, dot_one, n4]
    simp only [List.map_nil, List.sum_nil, List.map_cons, List.sum_cons, zero_add, add_zero]
    show 1 * (Complex.I * star (η o)) + ((-star (startPower (nrInput U ρ σ) nrInfo 0)) o * (Complex.I * star (η o)) +
      (-star (startPower (nrInput U ρ σ) nrInfo 1)) o * (Complex.I * star (η o))) = _
    have e0 : (-star (startPower (nrInput U ρ σ) nrInfo 0)) o = ⟨0, σ⟩ := by
      show -star (⟨0, σ⟩ : ℂ) = _
      apply Complex.ext <;> simp
    have e1 : (-star (startPower (nrInput U ρ σ) nrInfo 1)) o = ⟨-ρ, -σ⟩ := by
      show -star (⟨ρ, -σ⟩ : ℂ) = _
      apply Complex.ext <;> simp
    rw [e0, e1, ← add_mul, ← add_mul]
    congr 1
    apply Complex.ext <;> simp
    ring

/-- The blocks and the right-hand side of an iteration at real voltages `a` and `b` that solve the linear equations. -/
theorem step_values (S : YBus.Structure) {U ρ σ a b : ℝ} (h1 : 2 * a - b = U) (h2 : b - a = ρ * b) (pol : Nat → Polar .sym) (u : Nat → CV .sym)
    (hb : (pol 1).v o = b) (u0 : u 0 o = (a : ℂ)) (u1 : u 1 o = (b : ℂ)) (η : CV .sym) :
    jacAct (nrNet S) (nrInput U ρ σ) nrInfo.type (fun _ => none) pol u 0 0 η o = 2 * (a : ℂ) ^ 2 * star (η o) ∧
    jacAct (nrNet S) (nrInput U ρ σ) nrInfo.type (fun _ => none) pol u 0 1 η o = -(a : ℂ) * b * star (η o) ∧
    jacAct (nrNet S) (nrInput U ρ σ) nrInfo.type (fun _ => none) pol u 1 0 η o = -(a : ℂ) * b * star (η o) ∧
    jacAct (nrNet S) (nrInput U ρ σ) nrInfo.type (fun _ => none) pol u 1 1 η o =
      (a : ℂ) * b * star (η o) + 2 * (b : ℂ) ^ 2 * (σ * Complex.I) * ((η o).re : ℂ) ∧
    rhsOf (nrNet S) (nrInput U ρ σ) nrInfo.type (fun _ => none) pol u 0 o = 0 ∧
    rhsOf (nrNet S) (nrInput U ρ σ) nrInfo.type (fun _ => none) pol u 1 o = σ * Complex.I * (1 - (b : ℂ) ^ 2) := by
  obtain ⟨n1, n2, n3, n4⟩ := nodal_values S
  have l0 : onBus (nrNet S).loadBus 0 = [] := by show onBus [1, 1] 0 = []; decide
  have l1 : onBus (nrNet S).loadBus 1 = [0, 1] := by show onBus [1, 1] 1 = [0, 1]; decide
  have s0 : onBus (nrNet S).sourceBus 0 = [0] := by show onBus [0] 0 = [0]; decide
  have s1 : onBus (nrNet S).sourceBus 1 = [] := by show onBus [0] 1 = []; decide
  have sum2 : ∀ r, (∑ c ∈ Finset.range (nrNet S).T.nBus, dot .sym (nodal (nrNet S).T (nrNet S).y.param r c) (u c)) o =
      nodal (nrNet S).T (nrNet S).y.param r 0 o o * a + nodal (nrNet S).T (nrNet S).y.param r 1 o o * b := by
    intro r
    have : (nrNet S).T.nBus = 2 := rfl
    rw [this, Finset.sum_range_succ, Finset.sum_range_one, Pi.add_apply, dot_one, dot_one, u0, u1]
  have t0 : taken (nrNet S) u 0 o = (a : ℂ) * (a - b) := by
    unfold taken
    rw [Pi.mul_apply, Pi.star_apply, sum2, n1, n2, u0]
    simp
    left; ring
  have t1 : taken (nrNet S) u 1 o = (b : ℂ) * (b - a) := by
    unfold taken
    rw [Pi.mul_apply, Pi.star_apply, sum2, n3, n4, u1]
    simp
    left; ring
  have src : physicalSource (nrNet S) (nrInput U ρ σ) (u 0) 0 o = (a : ℂ) - b := by
    unfold physicalSource
    rw [dot_one, Pi.sub_apply, u0]
    show (1 : ℂ) * ((U : ℂ) - a) = _
    rw [← h1]
    push_cast
    ring
  unfold jacAct
  refine ⟨?_, ?_, ?_, ?_, ?_, ?_⟩
  · rw [if_pos rfl, l0, s0, Pi.add_apply]
    simp only [List.map_nil, List.sum_nil, List.map_cons, List.sum_cons, zero_add, add_zero]
    rw [flow_one, n1, u0, Pi.add_apply, Pi.mul_apply, t0, Pi.sub_apply, flow_one, Pi.mul_apply, Pi.mul_apply, Pi.star_apply, src, u0]
    show (a : ℂ) * star (a : ℂ) * star (1 : ℂ) * star (η o) + ((a : ℂ) * (a - b) * η o + ((a : ℂ) * star (a : ℂ) * star (1 : ℂ) * star (η o) -
      (a : ℂ) * star ((a : ℂ) - b) * η o)) = _
    simp only [star_one, star_sub, RCLike.star_def, Complex.conj_ofReal]
    ring
  · rw [if_neg (by decide), add_zero, flow_one, n2, u0, u1]
    simp
  · rw [if_neg (by decide), add_zero, flow_one, n3, u0, u1]
    simp only [star_neg, star_one, RCLike.star_def, Complex.conj_ofReal]
    ring
  · rw [if_pos rfl, l1, s1, Pi.add_apply]
    simp only [List.map_nil, List.sum_nil, List.map_cons, List.sum_cons, zero_add, add_zero]
    rw [flow_one, n4, u1, Pi.add_apply, Pi.mul_apply, t1]
    have e0 : (loadSlope (nrInput U ρ σ) (nrInfo.type 0) none 0 (pol 1).v).cplx o = 0 := by
      apply Complex.ext <;> simp [loadSlope, nrInfo, Power.cplx]
    have e1 : (loadSlope (nrInput U ρ σ) (nrInfo.type 1) none 1 (pol 1).v).cplx o = ⟨-2 * ρ * b ^ 2, 2 * σ * b ^ 2⟩ := by
      apply Complex.ext
      · show (_ : ℝ) = _
        simp only [Power.cplx_re]
        show -ρ * 2 * (pol 1).v o * (pol 1).v o = _
        rw [hb]; ring
      · show (_ : ℝ) = _
        simp only [Power.cplx_im]
        show -(-σ) * 2 * (pol 1).v o * (pol 1).v o = _
        rw [hb]; ring
    show (b : ℂ) * star (b : ℂ) * star (1 : ℂ) * star (η o) + ((b : ℂ) * (b - a) * η o +
      ((loadSlope (nrInput U ρ σ) (nrInfo.type 0) none 0 (pol 1).v).cplx o * ((η o).re : ℂ) +
       (loadSlope (nrInput U ρ σ) (nrInfo.type 1) none 1 (pol 1).v).cplx o * ((η o).re : ℂ))) = _
    rw [e0, e1]
    apply Complex.ext
    · simp [← Complex.ofReal_pow]
      linear_combination 2 * b * (η o).re * h2
    · simp [← Complex.ofReal_pow]
      ring
  · unfold rhsOf
    rw [l0, s0]
    simp only [List.map_nil, List.sum_nil, List.map_cons, List.sum_cons, zero_add, add_zero]
    rw [Pi.sub_apply, Pi.mul_apply, Pi.star_apply, src, t0, u0]
    simp
  · unfold rhsOf
    rw [l1, s1]
    simp only [List.map_nil, List.sum_nil, List.map_cons, List.sum_cons, zero_add, add_zero]
    rw [Pi.sub_apply, Pi.add_apply, t1]
    have e0 : given (nrInput U ρ σ) nrInfo.type (fun _ => none) (pol 1).v 0 o = σ * Complex.I := by
      show (⟨0, σ⟩ : ℂ) * ((1 : ℝ) : ℂ) = _
      apply Complex.ext <;> simp
    have e1 : given (nrInput U ρ σ) nrInfo.type (fun _ => none) (pol 1).v 1 o = (ρ - σ * Complex.I) * (b : ℂ) ^ 2 := by
      show (⟨ρ, -σ⟩ : ℂ) * (((pol 1).v o ^ 2 : ℝ) : ℂ) = _
      rw [hb]
      push_cast
      congr 1
      apply Complex.ext <;> simp
    rw [e0, e1]
    have h2' : (b : ℂ) - a = ρ * b := by exact_mod_cast h2
    rw [h2']
    ring

/-! ## Runs -/

theorem rows_diag (k θ v : ℝ) : rows k 0 0 k θ v = (k : ℂ) * (Complex.I * star ((pair θ v).cplx o)) := by
  rw [pair_cplx]
  apply Complex.ext <;> simp [rows]

theorem eps_small : machineEps * (100 : ℝ) ^ 2 ≤ 1 / 8 := by
  unfold machineEps
  norm_num

theorem polar_ext {x y : Polar .sym} (h1 : x.theta o = y.theta o) (h2 : x.v o = y.v o) : x = y := by
  have e : ∀ f g : Fin 1 → ℝ, f 0 = g 0 → f = g := fun f g h => by
    funext i
    fin_cases i
    exact h
  cases x
  cases y
  congr 1
  · exact e _ _ h1
  · exact e _ _ h2

theorem cv_ext {x y : CV .sym} (h : x o = y o) : x = y := by
  have e : ∀ f g : Fin 1 → ℂ, f 0 = g 0 → f = g := fun f g h => by
    funext i
    fin_cases i
    exact h
  exact e _ _ h

/-- The linear start of the grid. -/
theorem nr_start {S : YBus.Structure} (hS : YBus.build exTopo2 = some S) {U ρ σ a b : ℝ} (h1 : 2 * a - b = U) (h2 : b - a = ρ * b)
    (hρ : |1 / 2 - ρ| ≤ 100 ∧ 1 / 8 ≤ (1 / 2 - ρ) ^ 2) (perms : List (BlockPerm (Symm.sym.phases + Symm.sym.phases))) (hp : perms.length = 2) :
    ∃ x, solve (nrNet S) perms (startSys (nrNet S) (nrInput U ρ σ) nrInfo) = .ok x ∧ x 0 = pair a 0 ∧ x 1 = pair b 0 := by
  have hN := nrNet_valid hS
  have hc : FillClosed (nrNet S).T := exTopo2_closed
  obtain ⟨hA, hrhs⟩ := start_get hN (nrInput U ρ σ) nrInfo
  have hv := fun η => start_values S U ρ σ η
  obtain ⟨x, hx⟩ := two_solve hN rfl hA perms hp 100 2 0 0 2 (1 / 2 - ρ) 0 0 (1 / 2 - ρ) (fun θ v => pair (θ / 2) (v / 2))
    (fun θ v => by rw [(hv _).1, rows_diag]; norm_num)
    (fun θ v => by
      rw [(hv _).1, (hv _).2.1, pair_cplx, pair_cplx]
      apply Complex.ext <;> simp <;> ring)
    (fun θ v => by
      rw [(hv _).2.2.1, (hv _).2.2.2, pair_cplx, pair_cplx]
      apply Complex.ext <;> simp [rows] <;> ring)
    ⟨by norm_num, by norm_num, by norm_num, by norm_num, hρ.1, by norm_num, by norm_num, hρ.1⟩
    ⟨by norm_num, eps_small.trans (by norm_num)⟩
    (by
      have e : |(1 / 2 - ρ) * (1 / 2 - ρ) - 0 * 0| = (1 / 2 - ρ) ^ 2 := by
        rw [abs_of_nonneg (by nlinarith [sq_nonneg (1 / 2 - ρ)])]
        ring
      rw [e]
      exact ⟨by linarith [hρ.2], eps_small.trans hρ.2⟩)
  have hu := solve_unique hN hc hA perms (by rw [hp]; rfl) x hx (fun c => if c = 0 then pair a 0 else pair b 0) (by
    intro r hr
    have hr' : r = 0 ∨ r = 1 := by
      have : r < 2 := hr
      omega
    have hn : (nrNet S).T.nBus = 2 := rfl
    rw [hrhs r hr, hn, Finset.sum_range_succ, Finset.sum_range_one, if_pos rfl, if_neg (by decide)]
    have s0 : onBus (nrNet S).sourceBus 0 = [0] := by show onBus [0] 0 = [0]; decide
    have s1 : onBus (nrNet S).sourceBus 1 = [] := by show onBus [0] 1 = []; decide
    apply cv_ext
    rcases hr' with rfl | rfl
    · rw [s0, Pi.add_apply, (hv _).1, (hv _).2.1, pair_cplx, pair_cplx]
      simp only [List.map_nil, List.sum_nil, List.map_cons, List.sum_cons, zero_add, add_zero]
      rw [dot_one]
      show _ = 1 * (U : ℂ)
      rw [← h1]
      apply Complex.ext <;> simp
      ring
    · rw [s1, Pi.add_apply, (hv _).2.2.1, (hv _).2.2.2, pair_cplx, pair_cplx]
      show _ = (0 : ℂ)
      apply Complex.ext <;> simp
      linarith)
  refine ⟨x, hx, ?_, ?_⟩
  · have := hu 0 (by show 0 < 2; omega)
    rw [if_pos rfl] at this
    exact this.symm
  · have := hu 1 (by show 1 < 2; omega)
    rw [if_neg (by decide)] at this
    exact this.symm

/-- The first step of the grid. -/
theorem nr_first {S : YBus.Structure} (hS : YBus.build exTopo2 = some S) {U ρ σ a b κ θ₁ : ℝ} (h1 : 2 * a - b = U) (h2 : b - a = ρ * b)
    (ha : 0 < a) (hκ : 2 * a * κ = b) (hab : 2 * a ^ 2 ≤ 100 ∧ 1 / 8 ≤ 4 * a ^ 4)
    (hγ : |a * b - b ^ 2 / 2| ≤ 100 ∧ 1 / 8 ≤ (a * b - b ^ 2 / 2) ^ 2) (hσ : |2 * b ^ 2 * σ| ≤ 100)
    (hθ : (a * b - b ^ 2 / 2) * θ₁ = -(σ * (1 - b ^ 2))) (pol : Nat → Polar .sym)
    (u : Nat → CV .sym) (hb : (pol 1).v o = b) (u0 : u 0 o = (a : ℂ)) (u1 : u 1 o = (b : ℂ)) (x : Sys .sym)
    (hx : SysIs (nrNet S) (nrInput U ρ σ) nrInfo.type (fun _ => none) pol u (fun _ => False) x)
    (perms : List (BlockPerm (Symm.sym.phases + Symm.sym.phases))) (hp : perms.length = 2) :
    ∃ d, solve (nrNet S) perms x = .ok d ∧ d 0 = pair (κ * θ₁) 0 ∧ d 1 = pair θ₁ 0 := by
  have hN := nrNet_valid hS
  have hc : FillClosed (nrNet S).T := exTopo2_closed
  have hA := hx.acts
  have hval := fun η => step_values S (σ := σ) h1 h2 pol u hb u0 u1 η
  have hst : ∀ r c η, stepAct (nrNet S) (nrInput U ρ σ) nrInfo.type (fun _ => none) pol u (fun _ => False) r c η =
      jacAct (nrNet S) (nrInput U ρ σ) nrInfo.type (fun _ => none) pol u r c η := by
    intro r c η
    unfold stepAct
    rw [if_neg (fun h => h)]
  obtain ⟨d, hd⟩ := two_solve hN rfl hA perms hp 100 0 (2 * a ^ 2) (-(2 * a ^ 2)) 0 0 (a * b - b ^ 2 / 2) (-(a * b - b ^ 2 / 2)) (2 * b ^ 2 * σ)
    (fun θ v => pair (κ * θ) (κ * v))
    (fun θ v => by
      rw [hst, (hval _).1, pair_cplx]
      apply Complex.ext <;> simp [rows, ← Complex.ofReal_pow])
    (fun θ v => by
      rw [hst, hst, (hval _).1, (hval _).2.1, pair_cplx, pair_cplx]
      apply Complex.ext <;> simp [← Complex.ofReal_pow]
      · linear_combination a * v * hκ
      · linear_combination -a * θ * hκ)
    (fun θ v => by
      rw [hst, hst, (hval _).2.2.1, (hval _).2.2.2.1, pair_cplx, pair_cplx]
      apply Complex.ext <;> simp [rows, ← Complex.ofReal_pow]
      · linear_combination -b * v / 2 * hκ
      · linear_combination b * θ / 2 * hκ)
    ⟨by norm_num, by rw [abs_of_nonneg (by positivity)]; exact hab.1, by rw [abs_neg, abs_of_nonneg (by positivity)]; exact hab.1, by norm_num,
      by norm_num, hγ.1, by rw [abs_neg]; exact hγ.1, hσ⟩
    (by
      have e : |0 * 0 - 2 * a ^ 2 * -(2 * a ^ 2)| = 4 * a ^ 4 := by
        rw [show 0 * 0 - 2 * a ^ 2 * -(2 * a ^ 2) = 4 * a ^ 4 by ring, abs_of_nonneg (by positivity)]
      rw [e]
      exact ⟨by linarith [hab.2], eps_small.trans hab.2⟩)
    (by
      have e : |0 * (2 * b ^ 2 * σ) - (a * b - b ^ 2 / 2) * -(a * b - b ^ 2 / 2)| = (a * b - b ^ 2 / 2) ^ 2 := by
        rw [show 0 * (2 * b ^ 2 * σ) - (a * b - b ^ 2 / 2) * -(a * b - b ^ 2 / 2) = (a * b - b ^ 2 / 2) ^ 2 by ring, abs_of_nonneg (by positivity)]
      rw [e]
      exact ⟨by linarith [hγ.2], eps_small.trans hγ.2⟩)
  have hu := solve_unique hN hc hA perms (by rw [hp]; rfl) d hd (fun c => if c = 0 then pair (κ * θ₁) 0 else pair θ₁ 0) (by
    intro r hr
    have hr' : r = 0 ∨ r = 1 := by
      have : r < 2 := hr
      omega
    have hn : (nrNet S).T.nBus = 2 := rfl
    have hpq : (x.pq r).cplx = rhsOf (nrNet S) (nrInput U ρ σ) nrInfo.type (fun _ => none) pol u r := ((hx.2 r hr).1 (fun h => h)).1
    rw [hpq, hn, Finset.sum_range_succ, Finset.sum_range_one, if_pos rfl, if_neg (by decide)]
    apply cv_ext
    rcases hr' with rfl | rfl
    · rw [Pi.add_apply, hst, hst, (hval _).1, (hval _).2.1, (hval 0).2.2.2.2.1, pair_cplx, pair_cplx]
      apply Complex.ext <;> simp [← Complex.ofReal_pow]
      linear_combination -a * θ₁ * hκ
    · rw [Pi.add_apply, hst, hst, (hval _).2.2.1, (hval _).2.2.2.1, (hval 0).2.2.2.2.2, pair_cplx, pair_cplx]
      apply Complex.ext
      · simp [← Complex.ofReal_pow]
      · simp [← Complex.ofReal_pow]
        linear_combination b * θ₁ / 2 * hκ - hθ)
  refine ⟨d, hd, ?_, ?_⟩
  · have := hu 0 (by show 0 < 2; omega)
    rw [if_pos rfl] at this
    exact this.symm
  · have := hu 1 (by show 1 < 2; omega)
    rw [if_neg (by decide)] at this
    exact this.symm

/-- What the limits see of the grid: nothing. -/
theorem nr_limits (S : YBus.Structure) (U ρ σ : ℝ) (b : Nat) :
    ((Newton.start (limitsInput (nrNet S) (nrInput U ρ σ) nrInfo)).ctl b).type ≠ .pv ∧
    (Newton.start (limitsInput (nrNet S) (nrInput U ρ σ) nrInfo)).countdown = -1 := by
  have hbuses : (limitsInput (nrNet S) (nrInput U ρ σ) nrInfo).buses = [⟨true, []⟩, ⟨false, [0, 1]⟩] := by
    show ((List.range 2).map fun b => (⟨!(onBus [0] b).isEmpty, onBus [1, 1] b⟩ : Newton.BusIn)) = _
    rfl
  have hc0 : Newton.busControl (limitsInput (nrNet S) (nrInput U ρ σ) nrInfo) ⟨true, []⟩ = { Newton.Control.fresh with type := .slack } := rfl
  have hc1 : Newton.busControl (limitsInput (nrNet S) (nrInput U ρ σ) nrInfo) ⟨false, [0, 1]⟩ = Newton.Control.fresh := rfl
  unfold Newton.start
  rw [hbuses]
  refine ⟨?_, ?_⟩
  · show (match ([⟨true, []⟩, ⟨false, [0, 1]⟩] : List Newton.BusIn)[b]? with
      | some bus => Newton.busControl (limitsInput (nrNet S) (nrInput U ρ σ) nrInfo) bus
      | none => Newton.Control.fresh).type ≠ .pv
    match b with
    | 0 => simp only [List.getElem?_cons_zero, hc0]; simp
    | 1 => simp only [List.getElem?_cons_succ, List.getElem?_cons_zero, hc1]; simp [Newton.Control.fresh]
    | b + 2 => simp [Newton.Control.fresh]
  · simp only [List.any_cons, List.any_nil, hc0, hc1, Newton.Control.fresh]
    rfl

/-- When the first step turns both angles by full turns, the run ends after it. -/
theorem nr_run {S : YBus.Structure} (hS : YBus.build exTopo2 = some S) {U ρ σ a b κ θ₁ : ℝ} (h1 : 2 * a - b = U) (h2 : b - a = ρ * b)
    (ha : 0 < a) (hb : 0 < b) (hκ : 2 * a * κ = b) (hab : 2 * a ^ 2 ≤ 100 ∧ 1 / 8 ≤ 4 * a ^ 4)
    (hγ : |a * b - b ^ 2 / 2| ≤ 100 ∧ 1 / 8 ≤ (a * b - b ^ 2 / 2) ^ 2) (hσ : |2 * b ^ 2 * σ| ≤ 100)
    (hρ : |1 / 2 - ρ| ≤ 100 ∧ 1 / 8 ≤ (1 / 2 - ρ) ^ 2) (hθ : (a * b - b ^ 2 / 2) * θ₁ = -(σ * (1 - b ^ 2)))
    (e0 : Complex.exp (Complex.I * ((κ * θ₁ : ℝ) : ℂ)) = 1) (e1 : Complex.exp (Complex.I * (θ₁ : ℂ)) = 1)
    (tol t : ℝ) (ht : 0 ≤ t) (cacheRun : Bool) (maxIter : Int) (hm : maxIter ≠ 0) (fuel : Nat) (self : Nr .sym) (hp : self.perms.length = 2) :
    ∃ st u, (runPowerFlow (nrSolver tol (.fin t) cacheRun (nrNet S) (nrInput U ρ σ) nrInfo) (.fin t) maxIter (fuel + 2) self).2 = .ok st u 1 ∧
      u 0 = (fun _ => (a : ℂ)) ∧ u 1 = (fun _ => (b : ℂ)) ∧ st.lim.clamped = (fun _ => none) ∧ (∀ c, (st.lim.ctl c).type ≠ .pv) ∧
      st.pol 0 = pair (κ * θ₁) a ∧ st.pol 1 = pair θ₁ b := by
  have hN := nrNet_valid hS
  have hc : FillClosed (nrNet S).T := exTopo2_closed
  obtain ⟨x, hx, hx0, hx1⟩ := nr_start hS (σ := σ) h1 h2 hρ self.perms hp
  set inp := nrInput U ρ σ with hinp
  set lim0 := Newton.start (limitsInput (nrNet S) inp nrInfo) with hlim0
  have hlim := nr_limits S U ρ σ
  rw [← hinp, ← hlim0] at hlim
  set u0 := startVoltage (nrNet S) inp nrInfo x with hu0
  have hu0' : ∀ c, u0 c = fun p => ((x c).theta p : ℂ) + ((x c).v p : ℂ) * Complex.I := by
    intro c
    rw [hu0]
    unfold startVoltage referenceVoltage
    rw [if_neg (hlim c).1]
  have hu00 : u0 0 = fun _ => (a : ℂ) := by
    rw [hu0', hx0]
    funext p
    simp [pair]
  have hu01 : u0 1 = fun _ => (b : ℂ) := by
    rw [hu0', hx1]
    funext p
    simp [pair]
  set st0 : Nr .sym := ⟨lim0, startSys (nrNet S) inp nrInfo, fun b => ⟨fun p => (u0 b p).arg, fun p => ‖u0 b p‖⟩, self.perms⟩ with hst0
  have hinit : nrInit (nrNet S) inp nrInfo self = .ok (st0, u0) := by
    unfold nrInit
    rw [hx]
    rfl
  have hI := (nrInit_get hN hc inp nrInfo self st0 u0 (by rw [hp]; rfl) hinit).1
  have hpol0 : st0.pol 0 = pair 0 a := by
    show (⟨fun p => (u0 0 p).arg, fun p => ‖u0 0 p‖⟩ : Polar .sym) = _
    rw [hu00]
    apply polar_ext
    · show (a : ℂ).arg = 0
      exact Complex.arg_ofReal_of_nonneg ha.le
    · show ‖(a : ℂ)‖ = a
      rw [Complex.norm_real, Real.norm_eq_abs, abs_of_pos ha]
  have hpol1 : st0.pol 1 = pair 0 b := by
    show (⟨fun p => (u0 1 p).arg, fun p => ‖u0 1 p‖⟩ : Polar .sym) = _
    rw [hu01]
    apply polar_ext
    · show (b : ℂ).arg = 0
      exact Complex.arg_ofReal_of_nonneg hb.le
    · show ‖(b : ℂ)‖ = b
      rw [Complex.norm_real, Real.norm_eq_abs, abs_of_pos hb]
  obtain ⟨st1, hpr, hl1⟩ : ∃ st1, prepare tol (nrNet S) inp nrInfo st0 u0 = some st1 ∧ st1.lim = lim0 := by
    have hnp : ∀ dq, Newton.prepare tol (limitsInput (nrNet S) inp nrInfo) dq lim0 = some lim0 := by
      intro dq
      unfold Newton.prepare
      have hcd : lim0.countdown = -1 := (hlim 0).2
      simp only
      rw [if_neg (show ¬ (0 < lim0.countdown) by rw [hcd]; decide), if_neg (show ¬ (lim0.countdown = 0) by rw [hcd]; decide)]
    unfold prepare
    simp only [bind]
    rw [show st0.lim = lim0 from rfl, hnp]
    exact ⟨_, rfl, rfl⟩
  obtain ⟨p1, p2, p3, _⟩ := prepare_get tol hN inp nrInfo_one st0 st1 u0 hI.jac hpr
  have hcl : lim0.clamped = fun _ => none := rfl
  rw [hl1, hcl] at p3
  have hpv : (fun b => (lim0.ctl b).type = .pv) = fun _ => False := by
    funext c
    exact eq_false (hlim c).1
  rw [hpv] at p3
  obtain ⟨d, hd, hd0, hd1⟩ := nr_first hS h1 h2 ha hκ hab hγ hσ hθ st0.pol u0 (by rw [hpol1]; rfl) (by rw [hu00]) (by rw [hu01]) st1.sys p3
    st1.perms (by rw [p2]; exact hp)
  have hnew0 : updatePolar (st1.pol 0) (d 0) = pair (κ * θ₁) a := by
    rw [p1, hpol0, hd0]
    apply polar_ext
    · show (0 : ℝ) + κ * θ₁ = κ * θ₁
      ring
    · show a + a * 0 = a
      ring
  have hnew1 : updatePolar (st1.pol 1) (d 1) = pair θ₁ b := by
    rw [p1, hpol1, hd1]
    apply polar_ext
    · show (0 : ℝ) + θ₁ = θ₁
      ring
    · show b + b * 0 = b
      ring
  have hph0 : phasor (updatePolar (st1.pol 0) (d 0)) = fun _ => (a : ℂ) := by
    rw [hnew0]
    funext p
    show (a : ℂ) * Complex.exp (Complex.I * ((κ * θ₁ : ℝ) : ℂ)) = a
    rw [e0, mul_one]
  have hph1 : phasor (updatePolar (st1.pol 1) (d 1)) = fun _ => (b : ℂ) := by
    rw [hnew1]
    funext p
    show (b : ℂ) * Complex.exp (Complex.I * (θ₁ : ℂ)) = b
    rw [e1, mul_one]
  have hvd : ∀ z : CV .sym, voltageDev z z = .fin 0 := by
    intro z
    unfold voltageDev
    congr 1
    have : ∀ (l : List (Fin Symm.sym.phases)), l.foldl (fun m p => max m ‖z p - z p‖) (0 : ℝ) = 0 := by
      intro l
      induction l with
      | nil => rfl
      | cons q l ih =>
        rw [List.foldl_cons, sub_self, norm_zero, max_self]
        exact ih
    exact this _
  have hdev : maxDev 0 ((List.range (nrNet S).T.nBus).map fun b => voltageDev (u0 b) (phasor (updatePolar (st1.pol b) (d b)))) = .fin (0 : ℝ) := by
    have : List.range (nrNet S).T.nBus = [0, 1] := rfl
    rw [this]
    simp only [List.map_cons, List.map_nil]
    rw [hph0, hph1, hu00, hu01, hvd, hvd]
    simp [maxDev, Dbl.stdMax, Dbl.lt]
  have hstep : nrStep tol (.fin t) cacheRun (nrNet S) inp nrInfo st0 u0 =
      .ok ({ st1 with pol := fun b => updatePolar (st1.pol b) (d b) }, (fun b => phasor (updatePolar (st1.pol b) (d b))), .fin 0) := by
    unfold nrStep
    rw [hpr]
    simp only
    rw [hd]
    simp only [liftErr, bind, Except.bind]
    rw [hdev]
    have : Newton.iterateUnknown (.fin t) cacheRun (.fin (0 : ℝ)) st1.lim = (st1.lim, .fin 0) := by
      unfold Newton.iterateUnknown
      rw [hl1, (hlim 0).2]
      simp
    rw [this]
  refine ⟨{ st1 with pol := fun b => updatePolar (st1.pol b) (d b) }, fun b => phasor (updatePolar (st1.pol b) (d b)), ?_, hph0, hph1, ?_, ?_, hnew0, hnew1⟩
  · unfold runPowerFlow
    simp only
    rw [show (nrSolver tol (.fin t) cacheRun (nrNet S) inp nrInfo).init self = nrInit (nrNet S) inp nrInfo self from rfl, hinit]
    simp only
    rw [pfLoop, if_pos (Or.inr rfl), if_neg (fun h => hm h.symm),
      show (nrSolver tol (.fin t) cacheRun (nrNet S) inp nrInfo).step st0 u0 = nrStep tol (.fin t) cacheRun (nrNet S) inp nrInfo st0 u0 from rfl, hstep]
    simp only
    rw [pfLoop, if_neg]
    · rfl
    · simp [Dbl.lt, ht]
  · show st1.lim.clamped = _
    rw [hl1]
    rfl
  · intro c
    show (st1.lim.ctl c).type ≠ _
    rw [hl1]
    exact (hlim c).1

/-- **C54 on an example.** With a constant impedance of power -1 and a source of voltage 3, the run returns the exact voltages 2 and 1 after one iteration, whatever the
tolerance. -/
theorem nr_converges (tol t : ℝ) (ht : 0 ≤ t) (cacheRun : Bool) (maxIter : Int) (hm : maxIter ≠ 0) (fuel : Nat) (self : Nr .sym)
    (hp : self.perms.length = 2) :
    ∃ S st u, YBus.build exTopo2 = some S ∧ (nrNet S).Valid ∧ FillClosed (nrNet S).T ∧ OneRegulator nrInfo ∧
      (runPowerFlow (nrSolver tol (.fin t) cacheRun (nrNet S) (nrInput 3 (-1) 0) nrInfo) (.fin t) maxIter (fuel + 2) self).2 = .ok st u 1 ∧
      u 0 = (fun _ => 2) ∧ u 1 = (fun _ => 1) ∧ st.pol 0 = pair 0 2 ∧ st.pol 1 = pair 0 1 ∧
      mismatch (nrNet S) (nrInput 3 (-1) 0) nrInfo.type st.lim.clamped st.pol 1 o = 0 := by
  obtain ⟨S, hS, _⟩ := structure_correct exTopo2_valid
  obtain ⟨st, u, r1, r2, r3, r4, _, r5, r6⟩ := nr_run hS (U := 3) (ρ := -1) (σ := 0) (a := 2) (b := 1) (κ := 1 / 4) (θ₁ := 0) (by norm_num) (by norm_num) (by norm_num)
    (by norm_num) (by norm_num) (by norm_num) ⟨by rw [abs_le]; norm_num, by norm_num⟩ (by norm_num) ⟨by rw [abs_le]; norm_num, by norm_num⟩ (by norm_num) (by simp)
    (by simp) tol t ht cacheRun maxIter hm fuel self hp
  rw [mul_zero] at r5
  have q0 : phasor (st.pol 0) o = ((2 : ℝ) : ℂ) := by
    rw [r5]
    show ((2 : ℝ) : ℂ) * Complex.exp (Complex.I * ((0 : ℝ) : ℂ)) = _
    simp
  have q1 : phasor (st.pol 1) o = ((1 : ℝ) : ℂ) := by
    rw [r6]
    show ((1 : ℝ) : ℂ) * Complex.exp (Complex.I * ((0 : ℝ) : ℂ)) = _
    simp
  refine ⟨S, st, u, hS, nrNet_valid hS, exTopo2_closed, nrInfo_one, r1, by rw [r2]; norm_num, by rw [r3]; norm_num, r5, r6, ?_⟩
  rw [← rhsOf_eq, r4, (step_values S (U := 3) (ρ := -1) (σ := 0) (a := 2) (b := 1) (by norm_num) (by norm_num) st.pol _ (by rw [r6]; rfl) q0 q1 0).2.2.2.2.2]
  simp

/-- **C54 is false of the code without the condition on the angles.** A source of voltage 2 feeds, over a line, a constant impedance of power `-8πi/3` (at voltage 1) and
a generator of constant reactive power `8πi/3`. The linear start has no load at bus 1, so both voltages are 2. The first Newton step turns the angles by
exactly `2π` and `4π`: the phasors do not change, and the run reports convergence after one iteration with every tolerance, although at bus 1 the power
`-8πi` is missing. -/
theorem spurious_convergence (tol t : ℝ) (ht : 0 ≤ t) (cacheRun : Bool) (maxIter : Int) (hm : maxIter ≠ 0) (fuel : Nat) (self : Nr .sym)
    (hp : self.perms.length = 2) :
    ∃ S st u, YBus.build exTopo2 = some S ∧ (nrNet S).Valid ∧ FillClosed (nrNet S).T ∧ OneRegulator nrInfo ∧
      (runPowerFlow (nrSolver tol (.fin t) cacheRun (nrNet S) (nrInput 2 0 (8 * Real.pi / 3)) nrInfo) (.fin t) maxIter (fuel + 2) self).2 = .ok st u 1 ∧
      u 0 = (fun _ => 2) ∧ u 1 = (fun _ => 2) ∧ (∀ k, st.lim.clamped k = none) ∧
      mismatch (nrNet S) (nrInput 2 0 (8 * Real.pi / 3)) nrInfo.type st.lim.clamped st.pol 1 o = -(8 * Real.pi * Complex.I) := by
  obtain ⟨S, hS, _⟩ := structure_correct exTopo2_valid
  have hpi := Real.pi_pos
  have hpi4 := Real.pi_le_four
  have x2 : Complex.exp (Complex.I * ((2 * Real.pi : ℝ) : ℂ)) = 1 := by
    have := Complex.exp_two_pi_mul_I
    rw [← this]
    congr 1
    push_cast
    ring
  have x4 : Complex.exp (Complex.I * ((4 * Real.pi : ℝ) : ℂ)) = 1 := by
    rw [show Complex.I * ((4 * Real.pi : ℝ) : ℂ) = Complex.I * ((2 * Real.pi : ℝ) : ℂ) + Complex.I * ((2 * Real.pi : ℝ) : ℂ) by push_cast; ring,
      Complex.exp_add, x2, one_mul]
  have hσ : |2 * (2 : ℝ) ^ 2 * (8 * Real.pi / 3)| ≤ 100 := by
    rw [abs_of_nonneg (by positivity)]
    nlinarith [hpi4]
  have x2' : Complex.exp (Complex.I * (((1 / 2 : ℝ) * (4 * Real.pi) : ℝ) : ℂ)) = 1 := by
    rw [show (1 / 2 : ℝ) * (4 * Real.pi) = 2 * Real.pi by ring]
    exact x2
  obtain ⟨st, u, r1, r2, r3, r4, _, r5, r6⟩ := nr_run hS (U := 2) (ρ := 0) (σ := 8 * Real.pi / 3) (a := 2) (b := 2) (κ := 1 / 2) (θ₁ := 4 * Real.pi) (by norm_num)
    (by norm_num) (by norm_num) (by norm_num) (by norm_num) (by norm_num) ⟨by rw [abs_le]; norm_num, by norm_num⟩ hσ ⟨by rw [abs_le]; norm_num, by norm_num⟩
    (by ring) x2' x4 tol t ht cacheRun maxIter hm fuel self hp
  have q0 : phasor (st.pol 0) o = ((2 : ℝ) : ℂ) := by
    rw [r5]
    show ((2 : ℝ) : ℂ) * Complex.exp (Complex.I * (((1 / 2 : ℝ) * (4 * Real.pi) : ℝ) : ℂ)) = _
    rw [x2', mul_one]
  have q1 : phasor (st.pol 1) o = ((2 : ℝ) : ℂ) := by
    rw [r6]
    show ((2 : ℝ) : ℂ) * Complex.exp (Complex.I * ((4 * Real.pi : ℝ) : ℂ)) = _
    rw [x4, mul_one]
  refine ⟨S, st, u, hS, nrNet_valid hS, exTopo2_closed, nrInfo_one, r1, by rw [r2]; norm_num, by rw [r3]; norm_num, fun k => by rw [r4], ?_⟩
  rw [← rhsOf_eq, r4, (step_values S (U := 2) (ρ := 0) (σ := 8 * Real.pi / 3) (a := 2) (b := 2) (by norm_num) (by norm_num) st.pol _ (by rw [r6]; rfl) q0 q1 0).2.2.2.2.2]
  push_cast
  ring

/-- The hypotheses of `newton_start`, `newton_iteration`, `newton_voltage_control` and `newton_total` are met: the run above. -/
example : ∃ S, YBus.build exTopo2 = some S ∧ ∃ st u n, (nrNet S).Valid ∧ FillClosed (nrNet S).T ∧ OneRegulator nrInfo ∧
    (runPowerFlow (nrSolver 0 (.fin (1 / 100)) false (nrNet S) (nrInput 3 (-1) 0) nrInfo) (.fin (1 / 100)) 20 10
      ⟨⟨fun _ => Newton.Control.fresh, fun _ => none, 0⟩, ⟨[], fun _ => ⟨0, 0⟩⟩, fun _ => ⟨0, 0⟩, List.replicate 2 ⟨1, 1⟩⟩).2 = .ok st u n ∧
    (∀ b, b < 2 → ∀ p, (1 / 2 : ℝ) + 1 / 100 ≤ ‖u b p‖) := by
  obtain ⟨S, st, u, h1, h2, h3, h4, h5, h6, h7, _⟩ := nr_converges 0 (1 / 100) (by norm_num) false 20 (by norm_num) 8
    ⟨⟨fun _ => Newton.Control.fresh, fun _ => none, 0⟩, ⟨[], fun _ => ⟨0, 0⟩⟩, fun _ => ⟨0, 0⟩, List.replicate 2 ⟨1, 1⟩⟩ rfl
  refine ⟨S, h1, st, u, 1, h2, h3, h4, h5, fun b hb p => ?_⟩
  have : b = 0 ∨ b = 1 := by omega
  rcases this with rfl | rfl
  · rw [h6]; norm_num
  · rw [h7]; norm_num

end PGM.NewtonPf
