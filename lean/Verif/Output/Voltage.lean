import Verif.Output.Records
import Mathlib.Analysis.SpecialFunctions.Complex.Arg
import Mathlib.Tactic.FieldSimp
import Mathlib.Tactic.Linarith

/-!
# C34 for voltage sensors
-/

namespace PGM.Output

open PGM.Container PGM.Input PGM.Update PGM.Topology PGM.PowerFlow PGM.Component

variable {K : Type} {σ : Symm}

/-! ## Lemmas -/

theorem phaseMod_isAngle (θ : ℝ) : IsAngle (phaseMod θ) θ := by
  have h1 := Complex.arg_mem_Ioc (Complex.exp (θ * Complex.I))
  refine ⟨h1.1, h1.2, -toIocDiv Real.two_pi_pos (-Real.pi) θ, ?_⟩
  unfold phaseMod
  rw [Complex.arg_exp_mul_I, toIocMod]
  simp only [zsmul_eq_mul, Int.cast_neg]
  ring

theorem IsAngle.congr {δ x y : ℝ} (h : IsAngle δ x) (n : ℤ) (hxy : x = y + n * (2 * Real.pi)) : IsAngle δ y := by
  obtain ⟨h1, h2, m, h3⟩ := h
  exact ⟨h1, h2, m + n, by rw [h3, hxy]; push_cast; ring⟩

theorem IsAngle.unique {δ δ' θ : ℝ} (h : IsAngle δ θ) (h' : IsAngle δ' θ) : δ = δ' := by
  obtain ⟨h1, h2, m, h3⟩ := h
  obtain ⟨h1', h2', m', h3'⟩ := h'
  have hp := Real.pi_pos
  have hd : δ - δ' = (m - m' : ℤ) * (2 * Real.pi) := by push_cast; rw [h3, h3']; ring
  have : m - m' = 0 := by
    by_contra hne
    rcases lt_or_gt_of_ne hne with hlt | hgt
    · have : ((m - m' : ℤ) : ℝ) ≤ -1 := by exact_mod_cast Int.le_sub_one_of_lt hlt
      nlinarith
    · have : (1 : ℝ) ≤ ((m - m' : ℤ) : ℝ) := by exact_mod_cast hgt
      nlinarith
  rw [this] at hd
  simp at hd
  linarith

/-- The argument of a phasor. -/
theorem arg_phasor {r : ℝ} (hr : 0 < r) (θ : ℝ) : ∃ n : ℤ, ((r : ℂ) * Complex.exp (θ * Complex.I)).arg = θ + n * (2 * Real.pi) := by
  rw [Complex.arg_real_mul _ hr]
  exact (phaseMod_isAngle θ).2.2

theorem norm_phasor (r θ : ℝ) : ‖(r : ℂ) * Complex.exp (θ * Complex.I)‖ = |r| := by
  rw [norm_mul, Complex.norm_exp_ofReal_mul_I, mul_one, Complex.norm_real, Real.norm_eq_abs]

theorem posSeqOf_eq (z : Fin 3 → ℂ) : posSeqOf z = positiveSequence z := by
  have h2 : Complex.exp ((4 * Real.pi / 3) * Complex.I) = a2 := by
    have := congrFun negSeq_eq 2
    simpa [negSeq] using this
  unfold posSeqOf positiveSequence
  rw [exp_third, h2]

/-- The angle of a sensor compared with a calculated angle: no angle without measurement, else the difference. -/
def AngleOk (residual measured : Option ℝ) (calculated : ℝ) : Prop :=
  match measured with
  | none => residual = none
  | some θ => ∃ δ, residual = some δ ∧ IsAngle δ (θ - calculated)

theorem sqrt3_pos : 0 < √(3 : ℝ) := Real.sqrt_pos.mpr (by norm_num)

theorem voltage_residual {uR : ℝ} (hu : 0 < uR) {d : VoltageData} (u : CV σ) {j : Fin σ.phases} {v : ℝ} {θ : Option ℝ}
    (hm : MeasuresVoltage σ d j v θ) (hpos : ∀ u θ, d = .sym u (some θ) → 0 < u) :
    (voltageResidual uR d u j).1 = v - uScale σ * uR * ‖u j‖ ∧
      ((∃ u θ, σ = .asym ∧ d = .sym u (some θ)) ∨ AngleOk (voltageResidual uR d u j).2 θ (u j).arg) := by
  have h3 := sqrt3_pos
  have hne : uR ≠ 0 := hu.ne'
  cases hm with
  | symSym v θ j =>
    cases θ with
    | none =>
      simp only [voltageResidual, voltageResidualSym, voltageCalcSym, uScale, AngleOk]
      refine ⟨by field_simp, .inr trivial⟩
    | some θ =>
      have hv := hpos v θ rfl
      simp only [voltageResidual, voltageResidualSym, voltageCalcSym, uScale, AngleOk, norm_phasor]
      refine ⟨?_, .inr ⟨_, rfl, ?_⟩⟩
      · rw [abs_of_pos (by positivity)]; field_simp
      · obtain ⟨n, hn⟩ := arg_phasor (r := v / (uR * 1)) (by positivity) θ
        rw [hn]
        exact (phaseMod_isAngle _).congr n (by ring)
  | symAsymAngle w θ j =>
    have hz : voltageCalcSym uR (.asym w fun i => some (θ i)) =
        .inl (((√3 / uR : ℝ) : ℂ) * positiveSequence fun i => phasor (w i) (θ i)) := by
      simp only [voltageCalcSym, allAngles, uScale]
      rw [posSeqOf_eq]
      simp only [positiveSequence, phasor]
      congr 1
      have : ∀ x : ℝ, x / (uR * (1 / √3)) = √3 / uR * x := by intro x; field_simp
      simp only [this]
      push_cast
      ring
    simp only [voltageResidual, voltageResidualSym, hz, AngleOk]
    refine ⟨?_, .inr ⟨_, rfl, ?_⟩⟩
    · rw [norm_mul, Complex.norm_real, Real.norm_eq_abs, abs_of_pos (by positivity)]
      simp only [uScale]
      field_simp
    · rw [Complex.arg_real_mul _ (by positivity)]
      exact phaseMod_isAngle _
  | symAsym w θ i j hi =>
    have hz : voltageCalcSym uR (.asym w θ) = .inr ((w 0 / (uR * uScale .asym) + w 1 / (uR * uScale .asym) + w 2 / (uR * uScale .asym)) / 3) := by
      have : allAngles θ = none := by
        unfold allAngles
        fin_cases i <;> simp only [Fin.zero_eta, Fin.mk_one, Fin.reduceFinMk] at hi
        · simp [hi]
        · cases θ 0 <;> simp [hi]
        · cases θ 0 <;> cases θ 1 <;> simp [hi]
      simp only [voltageCalcSym, this]
    simp only [voltageResidual, voltageResidualSym, hz, AngleOk]
    refine ⟨?_, .inr trivial⟩
    simp only [uScale]
    field_simp
  | asymSym v θ j =>
    refine ⟨?_, ?_⟩
    · simp only [voltageResidual, voltageResidualAsym, voltagePhase, uScale]
      field_simp
    · cases θ with
      | none => exact .inr rfl
      | some θ => exact .inl ⟨v, θ, rfl, rfl⟩
  | asymAsym w θ j =>
    refine ⟨?_, .inr ?_⟩
    · simp only [voltageResidual, voltageResidualAsym, voltagePhase, uScale]
      field_simp
    · simp only [voltageResidual, voltageResidualAsym, voltagePhase]
      cases hj : θ j with
      | none => simp [AngleOk]
      | some x => exact ⟨_, rfl, phaseMod_isAngle _⟩

theorem nodeResult_id {A : Attr} {c : Container (Comp K)} {O : Objects} {sol : List (Sol σ)} {x : Comp K} {s : Nat} {r : NodeOut σ}
    (h : nodeResult A c O sol x s = some r) : r.id = x.elem.id := by
  unfold nodeResult at h
  cases hm : O.node s with
  | none => rw [hm] at h; simp only [Option.some.injEq] at h; rw [← h]; rfl
  | some m =>
    rw [hm] at h
    simp only [bind, Option.bind_eq_some_iff, Option.some.injEq] at h
    obtain ⟨_, _, _, _, hv⟩ := h
    rw [← hv]; rfl

/-- The record of a voltage sensor, next to the record of its node. -/
theorem voltage_shape {D : CompType → List (Elem K)} {c : Container (Comp K)} (h : build D = .ok c) (A : Attr) (O : Objects)
    (sol : List (Sol σ)) (hf : Fits O sol) {t : CompType} (ht : t ∈ [CompType.symVoltageSensor, .asymVoltageSensor]) {k : Nat} {e : Elem K}
    (hk : (D t)[k]? = some e) :
    ∃ out r, (voltageSensorRecords t A c O sol)[k]? = some (some out) ∧ some r ∈ nodeRecords A c O sol ∧ r.id = e.object ∧
      (∀ r' : NodeOut σ, some r' ∈ nodeRecords A c O sol → r'.id = e.object → r' = r) ∧
      (out = voltageSensorNull ⟨t, e⟩ ∧ r.energized = false ∨ r.energized = true ∧
        ∃ u : CV σ, out = voltageSensorOutput A ⟨t, e⟩ u ∧ ∀ j, r.u j = uScale σ * A.uRated e.object * ‖u j‖ ∧ r.uAngle j = (u j).arg) := by
  obtain ⟨kn, en, hkn, hid⟩ := node_of_ref h (List.mem_of_getElem? hk) (id := e.object)
    (by fin_cases ht <;> exact List.mem_singleton.mpr rfl)
  have hs := node_seq h hkn
  rw [hid] at hs
  obtain ⟨o, _, h2, _, _, h5⟩ := seq_ok h hk
  have hb : baseOf t = .voltageSensor := by fin_cases ht <;> rfl
  have hobj : registered .voltageSensor c (voltageSensorNode c) (o + k) = some kn := by
    rw [← hb, h5]
    exact hs
  have hrec : (voltageSensorRecords t A c O sol)[k]? = some (voltageSensorResult A O sol ⟨t, e⟩ kn) := by
    unfold voltageSensorRecords
    rw [produce_eq h hk h2, hobj]
    rfl
  obtain ⟨r, hr1, hr2, _⟩ := node_power h A O sol hf kn en hkn
  have hres : (nodeRecords A c O sol)[kn]? = some (nodeResult A c O sol ⟨.node, en⟩ kn) := by
    unfold nodeRecords
    rw [produce_eq h hkn (node_seq h hkn)]
    rfl
  have hr := hr1
  rw [hres] at hr
  have hr := Option.some.inj hr
  have huniq : ∀ r' : NodeOut σ, some r' ∈ nodeRecords A c O sol → r'.id = e.object → r' = r := by
    intro r' hr' hid'
    obtain ⟨k2, e2, s2, y, hk2, hs2, hy, hf2⟩ := mem_produce h hr'
    cases hy
    have h1 := nodeResult_id hf2
    simp only at h1
    obtain ⟨_, h4⟩ := id_unique h (List.mem_of_getElem? hk2) (List.mem_of_getElem? hkn) (by rw [hid, ← hid', h1])
    subst h4
    rw [show seqById (baseOf .node) c e2.id = some kn from node_seq h hkn] at hs2
    cases hs2
    rw [hr] at hf2
    exact (Option.some.inj hf2).symm
  rw [hrec]
  cases hm : O.node kn with
  | none =>
    refine ⟨voltageSensorNull ⟨t, e⟩, r, by simp [voltageSensorResult, hm], List.mem_of_getElem? hr1, hr2.trans hid, huniq, .inl ⟨rfl, ?_⟩⟩
    simp only [nodeResult, hm, Option.some.injEq] at hr
    rw [← hr]
    rfl
  | some m =>
    obtain ⟨x, h1, h2, _⟩ := hf.node kn m hm
    obtain ⟨u, hu⟩ := at2_some (member := Sol.u) h1 h2
    refine ⟨voltageSensorOutput A ⟨t, e⟩ u, r, by simp [voltageSensorResult, hm, hu], List.mem_of_getElem? hr1, hr2.trans hid, huniq, .inr ?_⟩
    simp only [nodeResult, hm, hu, bind, Option.bind_eq_some_iff, Option.some.injEq, exists_eq_left'] at hr
    obtain ⟨inj, _, hr⟩ := hr
    rw [← hr]
    refine ⟨rfl, u, rfl, fun j => ⟨?_, rfl⟩⟩
    simp only [nodeOutput, hid]

/-! ## Property -/

/-- C34, voltage sensors, partial. For every input from which a model can be built, every place of its components in the calculation and every result: the record of a voltage
sensor exists, carries its ID, and compares with the record of the node that the sensor refers to by ID. If that is not energised, nor is the sensor, with residuals zero. Otherwise
the residual of the magnitude is the measured magnitude minus the reported one, and that of the angle is the measured angle minus the reported one.

Missing: the angle residuals of a symmetric sensor in an asymmetric calculation. They are wrong in phases b and c, see `sym_voltage_sensor_angle_wrong`. -/
theorem voltage_sensor_residual_partial {D : CompType → List (Elem K)} {c : Container (Comp K)} (h : build D = .ok c) (A : Attr) (O : Objects)
    (sol : List (Sol σ)) (hf : Fits O sol) (t : CompType) (ht : t ∈ [CompType.symVoltageSensor, .asymVoltageSensor]) (k : Nat) (e : Elem K)
    (hk : (D t)[k]? = some e) (hu : 0 < A.uRated e.object) (hpos : ∀ u θ, A.voltage e.id = .sym u (some θ) → 0 < u) :
    ∃ out r, (voltageSensorRecords t A c O sol)[k]? = some (some out) ∧ out.id = e.id ∧
      some r ∈ nodeRecords A c O sol ∧ r.id = e.object ∧ (∀ r' : NodeOut σ, some r' ∈ nodeRecords A c O sol → r'.id = e.object → r' = r) ∧
      out.energized = r.energized ∧
      (r.energized = false → out.uResidual = 0 ∧ out.uAngleResidual = fun _ => some 0) ∧
      (r.energized = true → ∀ j v θ, MeasuresVoltage σ (A.voltage e.id) j v θ → out.uResidual j = v - r.u j ∧
        (¬ (∃ u θ, σ = .asym ∧ A.voltage e.id = .sym u (some θ)) → AngleOk (out.uAngleResidual j) θ (r.uAngle j))) := by
  obtain ⟨out, r, h1, h2, h3, h4, h5⟩ := voltage_shape h A O sol hf ht hk
  refine ⟨out, r, h1, ?_, h2, h3, h4, ?_⟩
  · rcases h5 with ⟨h5, _⟩ | ⟨_, u, h5, _⟩ <;> rw [h5] <;> rfl
  rcases h5 with ⟨h5, h6⟩ | ⟨h6, u, h5, h7⟩
  · subst h5
    refine ⟨h6.symm, fun _ => ⟨rfl, rfl⟩, ?_⟩
    intro hx; rw [h6] at hx; cases hx
  · subst h5
    refine ⟨h6.symm, ?_, ?_⟩
    · intro hx; rw [h6] at hx; cases hx
    · intro _ j v θ hm
      obtain ⟨ha, hb⟩ := voltage_residual hu u hm hpos
      rw [(h7 j).1, (h7 j).2]
      refine ⟨ha, fun hn => ?_⟩
      rcases hb with hb | hb
      · exact absurd hb hn
      · exact hb

/-- C34 is violated by symmetric voltage sensors with an angle in asymmetric calculations: if the reported voltages agree exactly with the measured ones, in all phases, the
reported angle residuals are not zero but 120 degrees in phase b and -120 degrees in phase c. -/
theorem sym_voltage_sensor_angle_wrong {D : CompType → List (Elem K)} {c : Container (Comp K)} (h : build D = .ok c) (A : Attr) (O : Objects)
    (sol : List (Sol .asym)) (hf : Fits O sol) (t : CompType) (ht : t ∈ [CompType.symVoltageSensor, .asymVoltageSensor]) (k : Nat) (e : Elem K)
    (hk : (D t)[k]? = some e) (v θ : ℝ) (hv : A.voltage e.id = .sym v (some θ))
    (hr : ∃ r, some r ∈ nodeRecords A c O sol ∧ r.id = e.object ∧ r.energized = true ∧
      ∀ j : Fin 3, ∃ n : ℤ, r.uAngle j = θ - j * (2 * Real.pi / 3) + n * (2 * Real.pi)) :
    ∃ out, (voltageSensorRecords t A c O sol)[k]? = some (some out) ∧
      out.uAngleResidual = ![some 0, some (2 * Real.pi / 3), some (-(2 * Real.pi / 3))] := by
  obtain ⟨out, r, h1, h2, h3, h4, h5⟩ := voltage_shape h A O sol hf ht hk
  obtain ⟨r', hr1, hr2, hr3, hr4⟩ := hr
  have := h4 r' hr1 hr2
  subst this
  refine ⟨out, h1, ?_⟩
  rcases h5 with ⟨_, h6⟩ | ⟨_, u, h5, h7⟩
  · rw [hr3] at h6; cases h6
  subst h5
  have hp := Real.pi_pos
  have key : ∀ (j : Fin 3) (δ : ℝ), -Real.pi < δ → δ ≤ Real.pi → (∃ m : ℤ, δ = j * (2 * Real.pi / 3) + m * (2 * Real.pi)) →
      (voltageSensorOutput A (⟨t, e⟩ : Comp K) u).uAngleResidual j = some δ := by
    intro j δ hδ1 hδ2 hδ3
    simp only [voltageSensorOutput, hv, voltageResidual, voltageResidualAsym, voltagePhase, Option.map_some, Option.some.injEq]
    obtain ⟨n, hn⟩ := hr4 j
    obtain ⟨m, hm⟩ := hδ3
    rw [(h7 j).2] at hn
    apply (phaseMod_isAngle _).unique
    exact ⟨hδ1, hδ2, m + n, by rw [hm, hn]; push_cast; ring⟩
  funext j
  have e0 := key 0 0 (by linarith) (by linarith) ⟨0, by simp⟩
  have e1 := key 1 (2 * Real.pi / 3) (by linarith) (by linarith) ⟨0, by simp⟩
  have e2 := key 2 (-(2 * Real.pi / 3)) (by linarith) (by linarith) ⟨-1, by
    rw [show ((2 : Fin 3) : ℕ) = 2 from rfl]; push_cast; ring⟩
  have : ∀ j : Fin 3, (voltageSensorOutput A (⟨t, e⟩ : Comp K) u).uAngleResidual j =
      (![some 0, some (2 * Real.pi / 3), some (-(2 * Real.pi / 3))] : Fin 3 → Option ℝ) j := by
    intro j
    fin_cases j
    · exact e0
    · exact e1
    · exact e2
  exact this j

end PGM.Output
