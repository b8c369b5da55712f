import Verif.Output.Voltage
import Mathlib.Tactic.FinCases

/-!
# C34 for current sensors

Lemmas, then the property. The code violates the property, see `current_sensor_branch3_undefined`, `current_sensor_open_end_undefined` and
`current_sensor_angle_of_other_node`.
-/

namespace PGM.Output

open PGM.Container PGM.Input PGM.Update PGM.Topology PGM.PowerFlow PGM.Component

variable {K : Type} {σ : Symm}

/-! ## Lemmas: phasors -/

theorem baseCurrent_pos {u : ℝ} (hu : 0 < u) : 0 < baseCurrent u := by
  have := sqrt3_pos
  unfold baseCurrent
  positivity

theorem spread_exp (θ : ℝ) (j : Fin 3) :
    spread .asym (Complex.exp (θ * Complex.I)) j = Complex.exp (((θ - j * (2 * Real.pi / 3) : ℝ) : ℂ) * Complex.I) := by
  have h2 : Complex.exp ((4 * Real.pi / 3) * Complex.I) = a2 := by
    have := congrFun negSeq_eq 2
    simpa [negSeq] using this
  have e1 := exp_third
  have per := Complex.exp_two_pi_mul_I
  fin_cases j
  · simp [spread]
  · simp only [spread, Fin.mk_one, Matrix.cons_val_one, Matrix.cons_val_zero, Fin.val_one]
    rw [← h2, ← Complex.exp_add]
    conv_rhs => rw [← mul_one (Complex.exp _), ← per, ← Complex.exp_add]
    congr 1
    push_cast
    ring
  · simp only [spread, Fin.reduceFinMk, Matrix.cons_val_two, Matrix.tail_cons, Matrix.head_cons, Matrix.cons_val]
    rw [← e1, ← Complex.exp_add]
    conv_rhs => rw [← mul_one (Complex.exp _), ← per, ← Complex.exp_add]
    congr 1
    push_cast
    ring

theorem iMeasured_eq {d : CurrentData} {j : Fin σ.phases} {I θ : ℝ} (hm : MeasuresCurrent σ d j I θ) (base : ℝ) :
    iMeasured (σ := σ) base d j = phasor (I / base) θ := by
  cases hm with
  | symSym i θ j => rfl
  | symAsym i θ j =>
    simp only [iMeasured]
    rw [posSeqOf_eq]
    have h := Complex.norm_mul_exp_arg_mul_I (positiveSequence fun m => phasor (i m) (θ m))
    have : positiveSequence (fun m => ((i m / base : ℝ) : ℂ) * Complex.exp (θ m * Complex.I)) =
        ((1 / base : ℝ) : ℂ) * positiveSequence fun m => phasor (i m) (θ m) := by
      simp only [positiveSequence, phasor]
      push_cast
      ring
    rw [this]
    conv_lhs => rw [← h]
    simp only [phasor]
    push_cast
    ring
  | asymSym i θ j => simp only [iMeasured, spread_exp, phasor]
  | asymAsym i θ j => rfl

theorem iFrame_norm (l : Bool) (i u : ℂ) : ‖iFrame l i u‖ = ‖i‖ := by
  unfold iFrame
  split_ifs
  · rw [norm_mul, norm_star]
    have : ((Real.cos u.arg : ℂ) + Complex.I * (Real.sin u.arg : ℂ)) = Complex.exp (u.arg * Complex.I) := by
      rw [Complex.exp_mul_I]
      push_cast
      ring
    rw [this, Complex.norm_exp_ofReal_mul_I, mul_one]
  · rfl

theorem iFrame_arg {i u : ℂ} (hi : i ≠ 0) : ∃ n : ℤ, (iFrame true i u).arg = u.arg - i.arg + n * (2 * Real.pi) := by
  have h : iFrame true i u = ((‖i‖ : ℝ) : ℂ) * Complex.exp (((u.arg - i.arg : ℝ) : ℂ) * Complex.I) := by
    have h1 : ((Real.cos u.arg : ℂ) + Complex.I * (Real.sin u.arg : ℂ)) = Complex.exp (u.arg * Complex.I) := by
      rw [Complex.exp_mul_I]
      push_cast
      ring
    have h2 : star i = (‖i‖ : ℂ) * Complex.exp (-(i.arg : ℂ) * Complex.I) := by
      conv_lhs => rw [← Complex.norm_mul_exp_arg_mul_I i]
      simp only [Complex.star_def, map_mul, Complex.conj_ofReal, ← Complex.exp_conj, Complex.conj_I]
      congr 2
      ring
    simp only [iFrame, if_true]
    rw [h1, h2, mul_assoc, ← Complex.exp_add]
    congr 2
    push_cast
    ring
  rw [h]
  exact arg_phasor (norm_pos_iff.mpr hi) _

theorem current_residual {A : Attr} {x : Comp K} {uR : ℝ} (hu : 0 < uR) {i u : CV σ} {j : Fin σ.phases} {I θ : ℝ}
    (hm : MeasuresCurrent σ (A.current x.elem.id) j I θ) (hI : 0 ≤ I) :
    (currentSensorOutput A x uR i u).iResidual j = I - baseCurrent uR * ‖i j‖ ∧
      (0 < I → (A.localAngle x.elem.id = false → IsAngle ((currentSensorOutput A x uR i u).iAngleResidual j) (θ - (i j).arg)) ∧
        (A.localAngle x.elem.id = true → i j ≠ 0 →
          IsAngle ((currentSensorOutput A x uR i u).iAngleResidual j) (θ - ((u j).arg - (i j).arg)))) := by
  have hb := baseCurrent_pos hu
  refine ⟨?_, fun hI => ?_⟩
  · simp only [currentSensorOutput]
    rw [iMeasured_eq hm, iFrame_norm]
    simp only [phasor]
    rw [norm_phasor, abs_of_nonneg (by positivity)]
    field_simp
  · have ha : ∃ n : ℤ, (iMeasured (σ := σ) (baseCurrent uR) (A.current x.elem.id) j).arg = θ + n * (2 * Real.pi) := by
      rw [iMeasured_eq hm]
      exact arg_phasor (by positivity) θ
    obtain ⟨n, hn⟩ := ha
    constructor
    · intro hl
      simp only [currentSensorOutput, hl, hn]
      exact (phaseMod_isAngle _).congr n (by simp [iFrame]; ring)
    · intro hl hi
      obtain ⟨n', hn'⟩ := iFrame_arg (u := u j) hi
      simp only [currentSensorOutput, hl, hn, hn']
      exact (phaseMod_isAngle _).congr (n - n') (by push_cast; ring)

/-! ## Lemmas: indices -/

/-- What a current sensor refers to. -/
theorem current_target {D : CompType → List (Elem K)} {c : Container (Comp K)} (h : build D = .ok c) {t : CompType}
    (ht : t ∈ [CompType.symCurrentSensor, .asymCurrentSensor]) {e : Elem K} (he : e ∈ D t) :
    ((e.terminal = 0 ∨ e.terminal = 1) ∧ ∃ tb ∈ [CompType.line, .asymLine, .genericBranch, .transformer], ∃ (kb : Nat) (b : Elem K),
      (D tb)[kb]? = some b ∧ b.id = e.object) ∨
    ∃ j : Fin 3, e.terminal = 6 + (j : Nat) ∧ ∃ (kb : Nat) (b : Elem K), (D .threeWindingTransformer)[kb]? = some b ∧ b.id = e.object := by
  have hv := (build_iff_valid D).mp ⟨c, h⟩
  have hp : Present D e.object
      (if e.terminal = 0 ∨ e.terminal = 1 then [.line, .asymLine, .genericBranch, .transformer]
      else if e.terminal = 6 ∨ e.terminal = 7 ∨ e.terminal = 8 then [.threeWindingTransformer]
      else []) := by
    fin_cases ht <;> exact hv.resolved _ e he _ (List.mem_singleton.mpr rfl)
  obtain ⟨t', ht', e', he', hid⟩ := hp
  obtain ⟨kb, hkb⟩ := List.mem_iff_getElem?.mp he'
  split_ifs at ht' with h0 h6
  · exact .inl ⟨h0, t', ht', kb, e', hkb, hid⟩
  · simp only [List.mem_singleton] at ht'
    subst ht'
    refine .inr ?_
    rcases h6 with h6 | h6 | h6
    · exact ⟨0, by simp [h6], kb, e', hkb, hid⟩
    · exact ⟨1, by simp [h6], kb, e', hkb, hid⟩
    · exact ⟨2, by simp [h6], kb, e', hkb, hid⟩
  · simp at ht'

theorem stored {D : CompType → List (Elem K)} {c : Container (Comp K)} (h : build D = .ok c) {tb : CompType} {kb : Nat} {b : Elem K}
    (hb : (D tb)[kb]? = some b) : c.vectors[group tb]? = some ((D tb).map fun e => ⟨tb, e⟩) ∧ ((D tb).map fun e => (⟨tb, e⟩ : Comp K))[kb]? = some ⟨tb, b⟩ := by
  refine ⟨build_contents D c h tb, ?_⟩
  simp [hb]

/-- The terminal in the code. -/
theorem terminal_from : terminalOf 0 = some .branchFrom := rfl
theorem terminal_to : terminalOf 1 = some .branchTo := rfl
theorem terminal_branch3 (j : Fin 3) : terminalOf (6 + (j : Nat)) = some (.branch3 j) := by fin_cases j <;> rfl

theorem current_record {D : CompType → List (Elem K)} {c : Container (Comp K)} (h : build D = .ok c) (A : Attr) (O : Objects)
    (sol : List (Sol σ)) {t : CompType} (ht : t ∈ [CompType.symCurrentSensor, .asymCurrentSensor]) {k : Nat} {e : Elem K} (hk : (D t)[k]? = some e)
    {s : Nat} (hs : currentSensorObject c ⟨t, e⟩ = some s) :
    (currentSensorRecords t A c O sol)[k]? = some (currentSensorResult A c O sol ⟨t, e⟩ s) := by
  obtain ⟨o, _, h2, _, _, h5⟩ := seq_ok h hk
  have hb : baseOf t = .currentSensor := by fin_cases ht <;> rfl
  have hobj : registered .currentSensor c (currentSensorObject c) (o + k) = some s := by
    rw [← hb, h5]
    exact hs
  unfold currentSensorRecords
  rw [produce_eq h hk h2, hobj]
  rfl

/-- The node at the terminal of a branch: 0 is the from side, 1 the to side. -/
def endNode (n : Int) (b : Elem K) : Int := if n = 0 then b.n1 else b.n2

/-- The current at the terminal of a branch. -/
def endCurrent (n : Int) (r : BranchSol σ) : CV σ := if n = 0 then r.iF else r.iT

theorem branch_base {tb : CompType} (ht : tb ∈ branchTypes) : baseOf tb = .branch := by
  simp only [branchTypes] at ht
  fin_cases ht <;> rfl

theorem mem_branchTypes {tb : CompType} (ht : tb ∈ [CompType.line, .asymLine, .genericBranch, .transformer]) : tb ∈ branchTypes := by
  fin_cases ht <;> decide

theorem branch_nodes {D : CompType → List (Elem K)} {c : Container (Comp K)} (h : build D = .ok c) {tb : CompType} (htb : tb ∈ branchTypes) {kb : Nat}
    {b : Elem K} (hb : (D tb)[kb]? = some b) : ∃ k1 k2 : Nat, ∃ e1 e2 : Elem K, (D .node)[k1]? = some e1 ∧ e1.id = b.n1 ∧ (D .node)[k2]? = some e2 ∧
      e2.id = b.n2 ∧ registered .branch c (branchNodes c) (position D tb kb) = some (k1, k2) := by
  obtain ⟨k1, e1, h1, h2⟩ := node_of_ref h (List.mem_of_getElem? hb) (id := b.n1) (by simp only [branchTypes] at htb; fin_cases htb <;> simp [refs])
  obtain ⟨k2, e2, h3, h4⟩ := node_of_ref h (List.mem_of_getElem? hb) (id := b.n2) (by simp only [branchTypes] at htb; fin_cases htb <;> simp [refs])
  refine ⟨k1, k2, e1, e2, h1, h2, h3, h4, ?_⟩
  obtain ⟨o, _, h6, _, _, h7⟩ := seq_ok h hb
  rw [seq_position h hb] at h6
  rw [Option.some.inj h6, ← branch_base htb, h7]
  have n1 := node_seq h h1
  have n2 := node_seq h h3
  rw [h2] at n1
  rw [h4] at n2
  simp [branchNodes, n1, n2]

/-- A sensor at a branch: its record. -/
theorem current_branch {D : CompType → List (Elem K)} {c : Container (Comp K)} (h : build D = .ok c) (A : Attr) (O : Objects)
    (sol : List (Sol σ)) {t : CompType} (ht : t ∈ [CompType.symCurrentSensor, .asymCurrentSensor]) {k : Nat} {e : Elem K} (hk : (D t)[k]? = some e)
    (hn : e.terminal = 0 ∨ e.terminal = 1) {tb : CompType} (htb : tb ∈ branchTypes) {kb : Nat} {b : Elem K} (hb : (D tb)[kb]? = some b)
    (hid : b.id = e.object) :
    (currentSensorRecords t A c O sol)[k]? = some (match O.branch (position D tb kb) with
      | none => some (currentSensorNull ⟨t, e⟩)
      | some m => (currentSensorTopologyIndex c m).bind fun i => (registered .branch c (branchNodes c) i).bind fun n =>
        (at2 sol Sol.branch m).bind fun r => (nodeVoltage O sol (if e.terminal = 0 then n.1 else n.2)).bind fun u =>
          some (currentSensorOutput A ⟨t, e⟩ (A.uRated (endNode e.terminal b)) (endCurrent e.terminal r) u)) := by
  have hseq := seq_position h hb
  rw [branch_base htb, hid] at hseq
  have hmap := map_eq h hb
  rw [hid] at hmap
  obtain ⟨hv1, hv2⟩ := stored h hb
  have hT : ∃ T, terminalOf e.terminal = some T ∧ (T = .branchFrom ∧ e.terminal = 0 ∨ T = .branchTo ∧ e.terminal = 1) := by
    rcases hn with hn | hn
    · exact ⟨_, by rw [hn]; rfl, .inl ⟨rfl, hn⟩⟩
    · exact ⟨_, by rw [hn]; rfl, .inr ⟨rfl, hn⟩⟩
  obtain ⟨T, hT, hT2⟩ := hT
  have hobj : currentSensorObject c ⟨t, e⟩ = some (position D tb kb) := by
    rcases hT2 with ⟨rfl, _⟩ | ⟨rfl, _⟩ <;> simp [currentSensorObject, hT, currentSensorClass, hseq]
  rw [current_record h A O sol ht hk hobj]
  congr 1
  rcases hT2 with ⟨rfl, h0⟩ | ⟨rfl, h0⟩
  · simp only [currentSensorResult, hT, terminalNode, hmap, hv1, hv2, bind, Option.bind_some, currentSensorMathId]
    cases O.branch (position D tb kb) with
    | none => rfl
    | some m =>
      simp only [currentSensorValue, bind, h0, endNode, endCurrent, if_true]
      cases currentSensorTopologyIndex c m with
      | none => rfl
      | some i =>
        simp only [Option.bind_some]
        cases registered .branch c (branchNodes c) i with
        | none => rfl
        | some n =>
          simp only [Option.bind_some]
          cases at2 sol Sol.branch m with
          | none => rfl
          | some r =>
            simp only [Option.bind_some]
            cases nodeVoltage O sol n.1 <;> rfl
  · simp only [currentSensorResult, hT, terminalNode, hmap, hv1, hv2, bind, Option.bind_some, currentSensorMathId]
    cases O.branch (position D tb kb) with
    | none => rfl
    | some m =>
      simp only [currentSensorValue, bind, h0, endNode, endCurrent, one_ne_zero, if_false]
      cases currentSensorTopologyIndex c m with
      | none => rfl
      | some i =>
        simp only [Option.bind_some]
        cases registered .branch c (branchNodes c) i with
        | none => rfl
        | some n =>
          simp only [Option.bind_some]
          cases at2 sol Sol.branch m with
          | none => rfl
          | some r =>
            simp only [Option.bind_some]
            cases nodeVoltage O sol n.2 <;> rfl

/-- A sensor at a three-winding transformer: its record. -/
theorem current_branch3 {D : CompType → List (Elem K)} {c : Container (Comp K)} (h : build D = .ok c) (A : Attr) (O : Objects)
    (sol : List (Sol σ)) {t : CompType} (ht : t ∈ [CompType.symCurrentSensor, .asymCurrentSensor]) {k : Nat} {e : Elem K} (hk : (D t)[k]? = some e)
    {j : Fin 3} (hn : e.terminal = 6 + (j : Nat)) {kb : Nat} {b : Elem K} (hb : (D .threeWindingTransformer)[kb]? = some b)
    (hid : b.id = e.object) :
    (currentSensorRecords t A c O sol)[k]? = some (match O.branch3 kb with
      | none => some (currentSensorNull ⟨t, e⟩)
      | some m => (currentSensorTopologyIndex c (m.1, m.2 j)).bind fun i => (registered .branch c (branchNodes c) i).bind fun n =>
        (at2 sol Sol.branch (m.1, m.2 j)).bind fun r => (nodeVoltage O sol n.1).bind fun u =>
          some (currentSensorOutput A ⟨t, e⟩ (A.uRated (node3 ⟨.threeWindingTransformer, b⟩ j)) r.iF u)) := by
  have hseq := seq_position h hb
  rw [hid, show position D .threeWindingTransformer kb = kb by simp [position, family]] at hseq
  have hseq : seqById .branch3 c e.object = some kb := hseq
  have hmap := map_eq h hb
  rw [hid] at hmap
  obtain ⟨hv1, hv2⟩ := stored h hb
  have hT : terminalOf e.terminal = some (.branch3 j) := by rw [hn]; exact terminal_branch3 j
  have hobj : currentSensorObject c ⟨t, e⟩ = some kb := by
    simp [currentSensorObject, hT, currentSensorClass, hseq]
  rw [current_record h A O sol ht hk hobj]
  congr 1
  simp only [currentSensorResult, hT, terminalNode, hmap, hv1, hv2, bind, Option.bind_some, currentSensorMathId]
  cases O.branch3 kb with
  | none => rfl
  | some m =>
    simp only [currentSensorValue, bind, Option.map_some]
    cases currentSensorTopologyIndex c (m.1, m.2 j) with
    | none => rfl
    | some i =>
      simp only [Option.bind_some]
      cases registered .branch c (branchNodes c) i with
      | none => rfl
      | some n =>
        simp only [Option.bind_some]
        cases at2 sol Sol.branch (m.1, m.2 j) with
        | none => rfl
        | some r =>
          simp only [Option.bind_some]
          cases nodeVoltage O sol n.1 <;> rfl

end PGM.Output
