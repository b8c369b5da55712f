import Verif.StateEst.Consistent
import Verif.Lu.Accept
import Mathlib.Tactic.FinCases

/-!
# C52 and C53: cases that meet the hypotheses, and branches that are counted twice
-/

namespace PGM.StateEst

open PGM.YBus PGM.Lu PGM.PowerFlow Matrix

/-! ## Blocks of symmetric calculations -/

/-- A scalar as a symmetric value. -/
def one (x : ℂ) : CV .sym := fun _ => x

theorem cv_one (v : CV .sym) : v = one (v (0 : Fin 1)) := by
  funext p
  show v p = v (0 : Fin 1)
  rw [Fin.fin_one_eq_zero p]

theorem mulVec_one (m : CM .sym) (x : ℂ) : m.mulVec (one x) = one (m (0 : Fin 1) (0 : Fin 1) * x) := by
  rw [cv_one (m.mulVec (one x))]
  congr 1
  show ∑ q : Fin 1, m (0 : Fin 1) q * x = _
  simp

theorem join_entries (x y : ℂ) : join (one x) (one y) = ![x, y] := by
  funext i
  fin_cases i <;> rfl

theorem toBlk_join (b : Gain .sym) (x y : ℂ) : b.toBlk.mulVec (join (one x) (one y)) =
    join (one (b.g (0 : Fin 1) (0 : Fin 1) * x + b.qh (0 : Fin 1) (0 : Fin 1) * y)) (one (b.q (0 : Fin 1) (0 : Fin 1) * x + b.r (0 : Fin 1) (0 : Fin 1) * y)) := by
  rw [toBlk_mulVec, upper_join, lower_join, mulVec_one, mulVec_one, mulVec_one, mulVec_one]
  rfl

theorem toBlk_two (b : Gain .sym) (x y : ℂ) : (show Blk ℂ 2 from b.toBlk).mulVec (![x, y] : Fin 2 → ℂ) =
    (![b.g (0 : Fin 1) (0 : Fin 1) * x + b.qh (0 : Fin 1) (0 : Fin 1) * y, b.q (0 : Fin 1) (0 : Fin 1) * x + b.r (0 : Fin 1) (0 : Fin 1) * y] :
      Fin 2 → ℂ) := by
  have h := toBlk_join b x y
  exact (congrArg (fun v => b.toBlk.mulVec v) (join_entries x y)).symm.trans (h.trans (join_entries _ _))

theorem toBlk_vals (b : Gain .sym) {g qh q r : ℂ} (hg : b.g (0 : Fin 1) (0 : Fin 1) = g) (hqh : b.qh (0 : Fin 1) (0 : Fin 1) = qh)
    (hq : b.q (0 : Fin 1) (0 : Fin 1) = q) (hr : b.r (0 : Fin 1) (0 : Fin 1) = r) (x y : ℂ) :
    (show Blk ℂ 2 from b.toBlk).mulVec (![x, y] : Fin 2 → ℂ) = (![g * x + qh * y, q * x + r * y] : Fin 2 → ℂ) := by
  rw [← hg, ← hqh, ← hq, ← hr]
  exact toBlk_two b x y

theorem two_entries (B : Blk ℂ 2) {a b c d : ℂ} (h : ∀ x y : ℂ, B.mulVec ![x, y] = ![a * x + b * y, c * x + d * y]) :
    B 0 0 = a ∧ B 0 1 = b ∧ B 1 0 = c ∧ B 1 1 = d := by
  have h1 := h 1 0
  have h2 := h 0 1
  refine ⟨?_, ?_, ?_, ?_⟩
  · simpa [Matrix.mulVec, dotProduct] using congrFun h1 0
  · simpa [Matrix.mulVec, dotProduct] using congrFun h2 0
  · simpa [Matrix.mulVec, dotProduct] using congrFun h1 1
  · simpa [Matrix.mulVec, dotProduct] using congrFun h2 1

theorem two_accepted (B : Blk ℂ 2) {a b c d : ℂ} (h : ∀ x y : ℂ, B.mulVec ![x, y] = ![a * x + b * y, c * x + d * y])
    (ha : ‖a‖ ≤ 2) (hb : ‖b‖ ≤ 2) (hc : ‖c‖ ≤ 2) (hd : ‖d‖ ≤ 2) (hdet : 1 / 2 ≤ ‖a * d - b * c‖) (flag : Bool) : factorizeBlock 0 false B flag ≠ none := by
  obtain ⟨e1, e2, e3, e4⟩ := two_entries B h
  refine factorize_two B flag 2 ?_ ?_ ?_
  · intro i j
    fin_cases i <;> fin_cases j
    · exact e1 ▸ ha
    · exact e2 ▸ hb
    · exact e3 ▸ hc
    · exact e4 ▸ hd
  · rw [e1, e2, e3, e4]
    intro h0
    rw [h0, norm_zero] at hdet
    norm_num at hdet
  · rw [e1, e2, e3, e4]
    refine le_trans ?_ hdet
    unfold machineEps
    norm_num

/-! ## Two buses and a line -/

/-- The values of the sensors, all with variance one. -/
noncomputable def power (x : ℂ) : PowerM .sym := ⟨one x, fun _ => 1 / 2, fun _ => 1 / 2⟩

/-- The voltage phasor, the injection and the power of the line are measured at bus 0. -/
noncomputable def exMeasured : Measured .sym where
  voltage b := if b = 0 then some ⟨.phasor (one 2), 1⟩ else none
  injection b := if b = 0 then some (power 2) else none
  shunt _ := none
  branchPower side k := if side = 0 ∧ k = 0 then some (power 2) else none
  branchCurrent _ _ := none

noncomputable def exSeNet (S : YBus.Structure) : SeNet .sym where
  T := exTopo2
  S := S
  y := updateAdmittance S ⟨[], exParam2, fun _ => [], fun _ => []⟩ exParam2
  slack := 0
  radial := true

/-- The voltages that the measurements come from. -/
noncomputable def exState (b : Nat) : CV .sym := if b = 0 then one 2 else one 1

theorem exSeNet_valid {S : YBus.Structure} (hS : build exTopo2 = some S) : (exSeNet S).Valid where
  topo := exTopo2_valid
  fill := exTopo2_closed
  structure_ := hS
  coherent := (coherent_updateAdmittance S _ exParam2).1
  slack := by show 0 < 2; omega

theorem exSeNet_param (S : YBus.Structure) : (exSeNet S).y.param = exParam2 := (coherent_updateAdmittance S _ exParam2).2

theorem exNoLoops : NoLoops exTopo2 := by
  intro b hb r
  simp only [exTopo2, List.mem_singleton] at hb
  subst hb
  simp
  omega

theorem power_var (x : ℂ) (p : Fin Symm.sym.phases) : (power x).vp p + (power x).vq p = 1 := by
  show (1 / 2 : ℝ) + 1 / 2 = 1
  norm_num

theorem exMeasured_valid : exMeasured.Valid where
  voltage b m h := by
    simp only [exMeasured] at h
    split_ifs at h
    injection h with h
    rw [← h]
    exact one_pos
  injection b m h p := by
    simp only [exMeasured] at h
    split_ifs at h
    injection h with h
    rw [← h, power_var]
    exact zero_le_one
  shunt k m h := by cases h
  power side k m h p := by
    simp only [exMeasured] at h
    split_ifs at h
    injection h with h
    rw [← h, power_var]
    exact one_pos
  current side k m h := by cases h

theorem exHasAngle : HasAngle 2 exMeasured := ⟨0, by omega, one 2, 1, rfl⟩

theorem exLinear : Linear exTopo2 exMeasured where
  phasors b m h := by
    simp only [exMeasured] at h
    split_ifs at h with hb
    exact ⟨one 2, 1, by rw [hb]; rfl⟩
  injection b m _ h := by
    simp only [exMeasured] at h
    split_ifs at h with hb
    exact ⟨one 2, 1, by rw [hb]; rfl⟩
  shunt x hx := by simp [exTopo2] at hx
  fromSide b hb _ r hr := by
    simp only [exTopo2, List.zipIdx_singleton, List.mem_singleton] at hb
    subst hb
    injection hr with hr
    exact ⟨one 2, 1, by rw [← hr]; rfl⟩
  toSide b hb h r hr := by
    rcases h with ⟨m, h⟩ | ⟨m, h, _⟩
    · simp only [exMeasured] at h
      split_ifs at h with h1
      exact absurd h1.1 (by decide)
    · cases h

theorem exNodal : nodal exTopo2 exParam2 0 0 (0 : Fin 1) (0 : Fin 1) = 1 ∧ nodal exTopo2 exParam2 0 1 (0 : Fin 1) (0 : Fin 1) = -1 ∧
    nodal exTopo2 exParam2 1 0 (0 : Fin 1) (0 : Fin 1) = -1 ∧ nodal exTopo2 exParam2 1 1 (0 : Fin 1) (0 : Fin 1) = 1 := by
  refine ⟨?_, ?_, ?_, ?_⟩
  · simp [nodal, exTopo2, branchTerm, exParam2]
    change (1 : ℂ) + 0 = 1
    norm_num
  · simp [nodal, exTopo2, branchTerm, exParam2]
    change (0 : ℂ) + -1 = -1
    norm_num
  · simp [nodal, exTopo2, branchTerm, exParam2]
    change (0 : ℂ) + -1 = -1
    norm_num
  · simp [nodal, exTopo2, branchTerm, exParam2]
    change (0 : ℂ) + 1 = 1
    norm_num

theorem exExact : Exact exTopo2 exParam2 exMeasured exState where
  phasor b v var h := by
    simp only [exMeasured] at h
    split_ifs at h with hb
    injection h with h
    injection h with h1 h2
    injection h1 with h1
    rw [← h1, exState, if_pos hb]
  magnitude b v var h := by
    simp only [exMeasured] at h
    split_ifs at h
    injection h with h
    injection h with h1 h2
    cases h1
  injection b m _ h p := by
    simp only [exMeasured] at h
    split_ifs at h with hb
    injection h with h
    subst hb
    have hn : nodalCurrent exTopo2 exParam2 exState 0 = one 1 := by
      unfold nodalCurrent
      show ∑ c ∈ Finset.range 2, _ = _
      rw [Finset.sum_range_succ, Finset.sum_range_one]
      show (nodal exTopo2 exParam2 0 0).mulVec (one 2) + (nodal exTopo2 exParam2 0 1).mulVec (one 1) = _
      rw [mulVec_one, mulVec_one, exNodal.1, exNodal.2.1]
      funext p
      show (1 : ℂ) * 2 + -1 * 1 = 1
      norm_num
    rw [hn, ← h]
    refine ⟨?_, ?_⟩
    · show (2 : ℂ) ≠ 0
      norm_num
    · show (2 : ℂ) = 2 * star 1
      simp
  shunt x hx := by simp [exTopo2] at hx
  fromPower b hb m h p := by
    simp only [exTopo2, List.zipIdx_singleton, List.mem_singleton] at hb
    subst hb
    simp only [exMeasured] at h
    rw [if_pos (by decide)] at h
    injection h with h
    have hn : fromCurrent exParam2 ((some 0, some 1), 0) exState = one 1 := by
      unfold fromCurrent
      show (exParam2.ff 0).mulVec (one 2) + (exParam2.ft 0).mulVec (one 1) = _
      rw [mulVec_one, mulVec_one]
      funext p
      show (1 : ℂ) * 2 + -1 * 1 = 1
      norm_num
    rw [hn, ← h]
    refine ⟨?_, ?_⟩
    · show (2 : ℂ) ≠ 0
      norm_num
    · show (2 : ℂ) = 2 * star 1
      simp
  toPower b hb m h := by
    simp only [exMeasured] at h
    split_ifs at h with h1
    exact absurd h1.1 (by decide)
  fromCurrent b hb m h := by cases h
  toCurrent b hb m h := by cases h

/-- The blocks of `G` for a branch with one sensor, of its power at the from side. -/
theorem oneSensor (P : Param (CM .sym)) (M : Measured .sym) (x : ℂ) (h0 : M.branchPower 0 0 = some (power x)) (h1 : M.branchPower 1 0 = none)
    (h2 : ∀ side, M.branchCurrent side 0 = none) (b0 b1 : Fin 2) : branchGain P M b0 b1 0 (0 : Fin 1) (0 : Fin 1) =
    star (branchValue P 0 0 b0 (0 : Fin 1) (0 : Fin 1)) * branchValue P 0 0 b1 (0 : Fin 1) (0 : Fin 1) := by
  have hd : diagonalInverse ((power x).vp + (power x).vq) = 1 := by
    unfold diagonalInverse
    rw [← Matrix.diagonal_one]
    congr 1
    funext p
    rw [Pi.add_apply, power_var]
    norm_num
  unfold branchGain powerVar curVar
  rw [h0, h1, h2, h2]
  simp only [Option.map_some, Option.map_none, wt, hd, add_zero, Matrix.mul_one]
  show ∑ q : Fin 1, star (branchValue P 0 0 b0 q (0 : Fin 1)) * branchValue P 0 0 b1 q (0 : Fin 1) = _
  simp

theorem exG : gAt exTopo2 exParam2 exMeasured 0 0 (0 : Fin 1) (0 : Fin 1) = 2 ∧ gAt exTopo2 exParam2 exMeasured 0 1 (0 : Fin 1) (0 : Fin 1) = -1 ∧
    gAt exTopo2 exParam2 exMeasured 1 0 (0 : Fin 1) (0 : Fin 1) = -1 ∧ gAt exTopo2 exParam2 exMeasured 1 1 (0 : Fin 1) (0 : Fin 1) = 1 := by
  have h := oneSensor exParam2 exMeasured 2 rfl rfl (fun _ => rfl)
  refine ⟨?_, ?_, ?_, ?_⟩
  · have e : nodal exTopo2 (gainParam exParam2 exMeasured) 0 0 = branchGain exParam2 exMeasured 0 0 0 := by
      simp [nodal, exTopo2, branchTerm, gainParam]
    unfold gAt gainVoltage
    rw [e, if_pos rfl]
    show (diagonal fun _ => ((1 / (1 : ℝ) : ℝ) : ℂ)) (0 : Fin 1) (0 : Fin 1) + branchGain exParam2 exMeasured 0 0 0 (0 : Fin 1) (0 : Fin 1) = 2
    rw [h, Matrix.diagonal_apply_eq]
    show ((1 / (1 : ℝ) : ℝ) : ℂ) + star 1 * 1 = 2
    norm_num
  · have e : nodal exTopo2 (gainParam exParam2 exMeasured) 0 1 = branchGain exParam2 exMeasured 0 1 0 := by
      simp [nodal, exTopo2, branchTerm, gainParam]
    unfold gAt gainVoltage
    rw [e, if_neg (by decide), zero_add]
    erw [h]
    show star (1 : ℂ) * -1 = -1
    norm_num
  · have e : nodal exTopo2 (gainParam exParam2 exMeasured) 1 0 = branchGain exParam2 exMeasured 1 0 0 := by
      simp [nodal, exTopo2, branchTerm, gainParam]
    unfold gAt gainVoltage
    rw [e, if_neg (by decide), zero_add]
    erw [h]
    show star (-1 : ℂ) * 1 = -1
    norm_num
  · have e : nodal exTopo2 (gainParam exParam2 exMeasured) 1 1 = branchGain exParam2 exMeasured 1 1 0 := by
      simp [nodal, exTopo2, branchTerm, gainParam]
    unfold gAt gainVoltage
    rw [e, if_pos rfl]
    show (0 : ℂ) + branchGain exParam2 exMeasured 1 1 0 (0 : Fin 1) (0 : Fin 1) = 1
    rw [h]
    show (0 : ℂ) + star (-1) * -1 = 1
    norm_num

/-- The four blocks of the system. -/
theorem exBlocks (x y : ℂ) :
    (show Blk ℂ 2 from (blockAt exTopo2 exParam2 exMeasured 0 0).toBlk).mulVec ![x, y] = ![2 * x + 1 * y, 1 * x + -1 * y] ∧
    (show Blk ℂ 2 from (blockAt exTopo2 exParam2 exMeasured 0 1).toBlk).mulVec ![x, y] = ![-1 * x + 0 * y, -1 * x + 0 * y] ∧
    (show Blk ℂ 2 from (blockAt exTopo2 exParam2 exMeasured 1 0).toBlk).mulVec ![x, y] = ![-1 * x + -1 * y, 0 * x + 0 * y] ∧
    (show Blk ℂ 2 from (blockAt exTopo2 exParam2 exMeasured 1 1).toBlk).mulVec ![x, y] = ![1 * x + 0 * y, 0 * x + -1 * y] := by
  obtain ⟨g1, g2, g3, g4⟩ := exG
  obtain ⟨n1, n2, n3, n4⟩ := exNodal
  have q0 : ∀ c, qAt exTopo2 exParam2 exMeasured 0 c = nodal exTopo2 exParam2 0 c := fun c => rfl
  have q1 : ∀ c, qAt exTopo2 exParam2 exMeasured 1 c = 0 := fun c => rfl
  have r0 : rAt exMeasured 0 (0 : Fin 1) (0 : Fin 1) = -1 := by
    show (diagonal fun p => ((-((power 2).vp p + (power 2).vq p) : ℝ) : ℂ)) (0 : Fin 1) (0 : Fin 1) = -1
    refine (Matrix.diagonal_apply_eq (n := Fin 1) _ _).trans ?_
    show ((-((1 / 2 : ℝ) + 1 / 2) : ℝ) : ℂ) = -1
    norm_num
  have r1 : rAt exMeasured 1 (0 : Fin 1) (0 : Fin 1) = -1 := Matrix.diagonal_apply_eq (n := Fin 1) _ _
  have st : ∀ (m : CM .sym) (z : ℂ), m (0 : Fin 1) (0 : Fin 1) = z → m.conjTranspose (0 : Fin 1) (0 : Fin 1) = star z := fun m z h => by
    rw [← h]
    rfl
  have z0 : (0 : CM .sym) (0 : Fin 1) (0 : Fin 1) = 0 := rfl
  refine ⟨toBlk_vals _ g1 ?_ n1 r0 x y, toBlk_vals _ g2 ?_ n2 z0 x y, toBlk_vals _ g3 ?_ z0 z0 x y, toBlk_vals _ g4 ?_ z0 r1 x y⟩
  · exact (st _ _ n1).trans (by simp)
  · exact (st _ _ z0).trans (by simp)
  · exact (st _ _ n2).trans (by simp)
  · exact (st _ _ z0).trans (by simp)

/-- The factorisation of the example succeeds. -/
theorem exFactors {S : YBus.Structure} (hS : build exTopo2 = some S) (old : List (Gain .sym)) (hold : old.length = S.colIndicesLu.length)
    (perms : List (BlockPerm (Symm.sym.phases + Symm.sym.phases))) (hlen : perms.length = 2) :
    ∃ f, prefactorize (luPattern S) false (gainData (exSeNet S) exMeasured old) perms = .ok f := by
  have hN := exSeNet_valid hS
  have hA := gain_holds hN exMeasured old hold
  rw [exSeNet_param] at hA
  refine block_accepted (structure_valid hN.topo hN.fill hN.structure_) _ _ perms hA hlen ?_
  intro k hk B hB flag
  have hk' : k = 0 ∨ k = 1 := by
    have : k < 2 := hk
    omega
  rcases hk' with rfl | rfl
  · refine two_accepted B (a := 2) (b := 1) (c := 1) (d := -1) (fun x y => ?_) ?_ ?_ ?_ ?_ ?_ flag
    · have := hB (fun _ => ![x, y]) (fun r hr => absurd hr (by omega))
      rw [Finset.sum_range_one] at this
      exact this.symm.trans (exBlocks x y).1
    all_goals norm_num
  · refine two_accepted B (a := 2 / 3) (b := 0) (c := 0) (d := -1) (fun x y => ?_) ?_ ?_ ?_ ?_ ?_ flag
    · have := hB (fun c => if c = 0 then ![2 / 3 * x, -1 / 3 * x] else ![x, y]) (fun r hr => ?_)
      · rw [Finset.sum_range_succ, Finset.sum_range_one] at this
        refine this.symm.trans ((congrArg₂ (· + ·) (exBlocks (2 / 3 * x) (-1 / 3 * x)).2.2.1 (exBlocks x y).2.2.2).trans ?_)
        funext i
        fin_cases i
        · show -1 * (2 / 3 * x) + -1 * (-1 / 3 * x) + (1 * x + 0 * y) = 2 / 3 * x + 0 * y
          ring
        · show 0 * (2 / 3 * x) + 0 * (-1 / 3 * x) + (0 * x + -1 * y) = 0 * x + -1 * y
          ring
      · have : r = 0 := by omega
        subst this
        rw [Finset.sum_range_succ, Finset.sum_range_one]
        refine (congrArg₂ (· + ·) (exBlocks (2 / 3 * x) (-1 / 3 * x)).1 (exBlocks x y).2.1).trans ?_
        funext i
        fin_cases i
        · show 2 * (2 / 3 * x) + 1 * (-1 / 3 * x) + (-1 * x + 0 * y) = 0
          ring
        · show 1 * (2 / 3 * x) + -1 * (-1 / 3 * x) + (-1 * x + 0 * y) = 0
          ring
    all_goals norm_num

/-- What the check sees of the measurements. -/
def exFlags : Observability.Meas where
  voltage b := b == 0
  angle b := b == 0
  injection b := b == 0
  fromPower k := k == 0
  toPower _ := false
  fromCurrent _ := false
  toCurrent _ := false
  globalAngleCurrent := false

theorem exFlags_eq : flags exTopo2 exMeasured = exFlags := by
  have h : ∀ {A : Type} (b : Nat) (a : A), (if b = 0 then some a else none).isSome = (b == 0) := by
    intro A b a
    by_cases hb : b = 0 <;> simp [hb]
  unfold flags exFlags
  congr 1
  · funext b; exact h b _
  · funext b
    by_cases hb : b = 0
    · subst hb; rfl
    · simp [exMeasured, hb, isPhasor]
  · funext b; exact h b _
  · funext k
    by_cases hk : k = 0 <;> simp [exMeasured, hk]

/-- The check finds the example observable. -/
theorem exObservable : ((build exTopo2).map fun S => Observability.check exTopo2 true S (flags exTopo2 exMeasured)) = some (.returns true false) := by
  rw [exFlags_eq]
  decide +kernel

/-- **C53 on the example.** From any start, with any tolerance, the estimation returns the voltages 2 and 1 that the measurements come from. -/
theorem exRun (start : Nat → CV .sym) (tol : ℝ) (htol : 0 ≤ tol) (maxIter : Nat) :
    ∃ S old perms u, build exTopo2 = some S ∧ old.length = S.colIndicesLu.length ∧ perms.length = 2 ∧ seVoltages (exSeNet S) exMeasured tol (maxIter + 2) old perms start = .ok u ∧ u 0 = one 2 ∧ u 1 = one 1 := by
  obtain ⟨S, hS, _⟩ := structure_correct exTopo2_valid
  obtain ⟨f, hf⟩ := exFactors hS (List.replicate S.colIndicesLu.length ⟨0, 0, 0, 0⟩) (by simp) (List.replicate 2 ⟨1, 1⟩) (by simp)
  obtain ⟨u, h1, h2⟩ := exact_recovered_partial (exSeNet_valid hS) exNoLoops exMeasured_valid (by simp [exSeNet]) (by simp [exSeNet, exTopo2]) hf
    (Or.inr rfl) exLinear exHasAngle (by rw [exSeNet_param]; exact exExact) htol maxIter start
  refine ⟨S, List.replicate S.colIndicesLu.length ⟨0, 0, 0, 0⟩, List.replicate 2 ⟨1, 1⟩, u, hS, by simp, by simp, ?_, h2 0 (by show 0 < 2; omega), h2 1 (by show 1 < 2; omega)⟩
  have ho := exObservable
  rw [hS] at ho
  injection ho with ho
  unfold seVoltages
  rw [show Observability.check (exSeNet S).T (exSeNet S).radial (exSeNet S).S (flags (exSeNet S).T exMeasured) = .returns true false from ho]
  simp only [Bool.false_and]
  rw [show prefactorize (luPattern (exSeNet S).S) false _ _ = .ok f from hf]
  exact h1

/-- The example meets the hypotheses of the theorems about the normalisation. -/
example : exMeasured.Valid ∧ ∃ b, b < exTopo2.nBus ∧ (exMeasured.voltage b).isSome := ⟨exMeasured_valid, 0, by decide, rfl⟩

end PGM.StateEst
