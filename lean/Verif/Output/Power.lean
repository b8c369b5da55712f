import Verif.Output.Records
import Mathlib.Tactic.Ring
import Mathlib.Tactic.FieldSimp
import Mathlib.Tactic.FinCases
import Mathlib.Tactic.NormNum

/-!
# C34 for power sensors

Lemmas, then the property.
-/

namespace PGM.Output

open PGM.Container PGM.Input PGM.Update PGM.Topology PGM.PowerFlow PGM.Component

variable {K : Type} {σ : Symm}

/-! ## Lemmas -/

theorem direction_sq (t : Terminal) : convertDirection t * convertDirection t = 1 := by
  cases t <;> simp [convertDirection]

theorem power_output_p (A : Attr) (x : Comp K) (t : Terminal) (s : CV σ) (j : Fin σ.phases) :
    (powerSensorOutput A x t s).pResidual j = measuredP σ (A.power x.elem.id) j - basePower σ * (s j).re * convertDirection t := by
  have hd := direction_sq t
  simp only [powerSensorOutput]
  rw [Complex.re_mul_ofReal]
  cases hp : A.power x.elem.id with
  | sym p q =>
    cases σ
    · simp only [sResidual, sMeasured, measuredP, basePower, Complex.sub_re]
      field_simp
      linear_combination p * hd
    · simp only [sResidual, sMeasured, measuredP, basePower, Complex.sub_re]
      field_simp
      linear_combination p * hd
  | asym p q =>
    cases σ
    · simp only [sResidual, sMeasured, measuredP, basePower]
      rw [show (3 : ℂ) = ((3 : ℝ) : ℂ) by norm_num, Complex.div_ofReal_re]
      simp only [Complex.add_re, Complex.sub_re]
      field_simp
      linear_combination (3 * (p 0 + p 1 + p 2)) * hd
    · simp only [sResidual, sMeasured, measuredP, basePower, Complex.sub_re]
      field_simp
      linear_combination (3 * p j) * hd

theorem power_output_q (A : Attr) (x : Comp K) (t : Terminal) (s : CV σ) (j : Fin σ.phases) :
    (powerSensorOutput A x t s).qResidual j = measuredQ σ (A.power x.elem.id) j - basePower σ * (s j).im * convertDirection t := by
  have hd := direction_sq t
  simp only [powerSensorOutput]
  rw [Complex.im_mul_ofReal]
  cases hp : A.power x.elem.id with
  | sym p q =>
    cases σ
    · simp only [sResidual, sMeasured, measuredQ, basePower, Complex.sub_im]
      field_simp
      linear_combination q * hd
    · simp only [sResidual, sMeasured, measuredQ, basePower, Complex.sub_im]
      field_simp
      linear_combination q * hd
  | asym p q =>
    cases σ
    · simp only [sResidual, sMeasured, measuredQ, basePower]
      rw [show (3 : ℂ) = ((3 : ℝ) : ℂ) by norm_num, Complex.div_ofReal_im]
      simp only [Complex.add_im, Complex.sub_im]
      field_simp
      linear_combination (3 * (q 0 + q 1 + q 2)) * hd
    · simp only [sResidual, sMeasured, measuredQ, basePower, Complex.sub_im]
      field_simp
      linear_combination (3 * q j) * hd

/-- The power at a terminal that the sensor uses is the power that is reported there, but for the sign convention. -/
def SameValue (sol : List (Sol σ)) (T : Terminal) (p q : RV σ ℝ) (m : Option (Nat × Nat)) : Prop :=
  match m with
  | none => p = 0 ∧ q = 0
  | some m => ∀ v, powerSensorValue sol T m = some v →
    ∀ j, p j = basePower σ * (v j).re * convertDirection T ∧ q j = basePower σ * (v j).im * convertDirection T

theorem branch_value {A : Attr} {O : Objects} {sol : List (Sol σ)} {x : Comp K} {s : Nat} {r : BranchOut σ}
    (h : branchResult A O sol x s = some r) :
    SameValue sol .branchFrom r.pFrom r.qFrom (O.branch s) ∧ SameValue sol .branchTo r.pTo r.qTo (O.branch s) := by
  unfold branchResult at h
  cases hm : O.branch s with
  | none =>
    rw [hm] at h; simp only [Option.some.injEq] at h; rw [← h]
    exact ⟨⟨rfl, rfl⟩, ⟨rfl, rfl⟩⟩
  | some m =>
    rw [hm] at h
    simp only [bind, Option.bind_eq_some_iff, Option.some.injEq] at h
    obtain ⟨v, hv1, hv⟩ := h
    rw [← hv]
    constructor <;> intro w hw j <;> simp only [powerSensorValue, hv1, Option.map_some, Option.some.injEq] at hw <;>
      subst hw <;> simp [branchOutput, convertDirection]

theorem branch3_value {A : Attr} {O : Objects} {sol : List (Sol σ)} {x : Comp K} {s : Nat} {r : Branch3Out σ}
    (h : branch3Result A O sol x s = some r) (j : Fin 3) :
    SameValue sol (.branch3 j) (r.p j) (r.q j) ((O.branch3 s).map fun x => (x.1, x.2 j)) := by
  unfold branch3Result at h
  cases hm : O.branch3 s with
  | none =>
    rw [hm] at h; simp only [Option.some.injEq] at h; rw [← h]
    exact ⟨rfl, rfl⟩
  | some m =>
    rw [hm] at h
    simp only [bind, Option.bind_eq_some_iff, Option.some.injEq] at h
    obtain ⟨v0, h0, v1, h1, v2, h2, hv⟩ := h
    rw [← hv]
    intro w hw i
    fin_cases j
    · simp only [powerSensorValue, Fin.zero_eta, h0, Option.map_some, Option.some.injEq] at hw
      subst hw; simp [branch3Output, convertDirection]
    · simp only [powerSensorValue, Fin.mk_one, h1, Option.map_some, Option.some.injEq] at hw
      subst hw; simp [branch3Output, convertDirection]
    · simp only [powerSensorValue, Fin.reduceFinMk, h2, Option.map_some, Option.some.injEq] at hw
      subst hw; simp [branch3Output, convertDirection]

theorem appl_value {A : Attr} {t : CompType} {O : Objects} {sol : List (Sol σ)} {x : Comp K} {s : Nat} {r : ApplOut σ} {T : Terminal}
    (ht : x.type = t) (hT : powerSensorMathId O T s = applCoupling O t s) (hd : injectionDirection t = convertDirection T)
    (hv : ∀ m, powerSensorValue sol T m = (at2 sol (applMember t) m).map ApplSol.s)
    (h : applResult (applMember t) (applCoupling O t) A sol x s = some r) :
    SameValue sol T r.p r.q (powerSensorMathId O T s) := by
  rw [hT]
  unfold applResult at h
  cases hm : applCoupling O t s with
  | none =>
    rw [hm] at h; simp only [Option.some.injEq] at h; rw [← h]
    exact ⟨rfl, rfl⟩
  | some m =>
    rw [hm] at h
    simp only [bind, Option.bind_eq_some_iff, Option.some.injEq] at h
    obtain ⟨v, hv1, hr⟩ := h
    rw [← hr]
    intro w hw i
    rw [hv, hv1] at hw
    simp only [Option.map_some, Option.some.injEq] at hw
    subst hw
    simp [applOutput, ht, hd]

theorem reports_value {D : CompType → List (Elem K)} {c : Container (Comp K)} (h : build D = .ok c) {A : Attr} {O : Objects} {sol : List (Sol σ)}
    {n id : Int} {p q : RV σ ℝ} (hr : Reports A c O sol n id p q) {T : Terminal} {s : Nat} (hT : terminalOf n = some T)
    (hs : seqById (powerSensorClass T) c id = some s) : SameValue sol T p q (powerSensorMathId O T s) := by
  have appl : ∀ (t : CompType) (r : ApplOut σ), some r ∈ applRecords t A c O sol → baseOf t = powerSensorClass T →
      seqById (powerSensorClass T) c r.id = some s → powerSensorMathId O T s = applCoupling O t s → injectionDirection t = convertDirection T →
      (∀ m, powerSensorValue sol T m = (at2 sol (applMember t) m).map ApplSol.s) → SameValue sol T r.p r.q (powerSensorMathId O T s) := by
    intro t r hr hb hs h1 h2 h3
    obtain ⟨k, e, s', y, hk, hs', hy, hf⟩ := mem_produce h hr
    cases hy
    have hid := applResult_id hf
    simp only at hid
    rw [← hid, hb, hs] at hs'
    cases hs'
    exact appl_value (t := t) rfl h1 h2 h3 hf
  cases hr with
  | branchFrom t r ht hr =>
    cases hT
    obtain ⟨k, e, s', y, hk, hs', hy, hf⟩ := mem_produce h hr
    cases hy
    have hid := branchResult_id hf
    simp only at hid
    have hb : baseOf t = .branch := by simp only [branchTypes] at ht; fin_cases ht <;> rfl
    rw [← hid, hb] at hs'
    rw [show seqById .branch c r.id = some s from hs] at hs'
    cases hs'
    exact (branch_value hf).1
  | branchTo t r ht hr =>
    cases hT
    obtain ⟨k, e, s', y, hk, hs', hy, hf⟩ := mem_produce h hr
    cases hy
    have hid := branchResult_id hf
    simp only at hid
    have hb : baseOf t = .branch := by simp only [branchTypes] at ht; fin_cases ht <;> rfl
    rw [← hid, hb] at hs'
    rw [show seqById .branch c r.id = some s from hs] at hs'
    cases hs'
    exact (branch_value hf).2
  | source r hr => cases hT; exact appl .source r hr rfl hs rfl rfl (fun _ => rfl)
  | shunt r hr => cases hT; exact appl .shunt r hr rfl hs rfl rfl (fun _ => rfl)
  | load t r ht hr => cases hT; fin_cases ht <;> exact appl _ r hr rfl hs rfl rfl (fun _ => rfl)
  | generator t r ht hr => cases hT; fin_cases ht <;> exact appl _ r hr rfl hs rfl rfl (fun _ => rfl)
  | branch3 j r hr =>
    have hTj : T = .branch3 j := by fin_cases j <;> (simp [terminalOf] at hT; exact hT.symm)
    subst hTj
    obtain ⟨k, e, s', y, hk, hs', hy, hf⟩ := mem_produce h hr
    cases hy
    have hid := branch3Result_id hf
    simp only at hid
    rw [← hid] at hs'
    rw [show seqById (baseOf .threeWindingTransformer) c r.id = some s from hs] at hs'
    cases hs'
    exact branch3_value hf j
  | node id s' m x v h1 h2 h3 h4 =>
    cases hT
    rw [show seqById .node c id = some s from hs] at h1
    cases h1
    simp only [powerSensorMathId, h2]
    intro w hw j
    simp only [powerSensorValue, at2, h3, bind, Option.bind_some, h4, Option.some.injEq] at hw
    subst hw
    simp [convertDirection]
  | nodeOff id s' h1 h2 =>
    cases hT
    rw [show seqById .node c id = some s from hs] at h1
    cases h1
    simp only [powerSensorMathId, h2]
    exact ⟨rfl, rfl⟩

/-- What a power sensor refers to. -/
theorem power_present {D : CompType → List (Elem K)} {c : Container (Comp K)} (h : build D = .ok c) {t : CompType}
    (ht : t ∈ [CompType.symPowerSensor, .asymPowerSensor]) {e : Elem K} (he : e ∈ D t) :
    Present D e.object
      (if e.terminal = 0 ∨ e.terminal = 1 then [.line, .asymLine, .genericBranch, .transformer]
      else if e.terminal = 2 then [.source]
      else if e.terminal = 3 then [.shunt]
      else if e.terminal = 4 then [.symLoad, .asymLoad]
      else if e.terminal = 5 then [.symGen, .asymGen]
      else if e.terminal = 6 ∨ e.terminal = 7 ∨ e.terminal = 8 then [.threeWindingTransformer]
      else if e.terminal = 9 then [.node]
      else []) := by
  have hv := (build_iff_valid D).mp ⟨c, h⟩
  fin_cases ht <;> exact hv.resolved _ e he _ (List.mem_singleton.mpr rfl)

/-- What a power sensor refers to exists, is of a type that fits the terminal, and has a sequence number. -/
theorem power_target {D : CompType → List (Elem K)} {c : Container (Comp K)} (h : build D = .ok c) {t : CompType}
    (ht : t ∈ [CompType.symPowerSensor, .asymPowerSensor]) {e : Elem K} (he : e ∈ D t) :
    ∃ T s, terminalOf e.terminal = some T ∧ seqById (powerSensorClass T) c e.object = some s := by
  have key : ∀ ts : List CompType, Present D e.object ts → ∀ cls, (∀ t' ∈ ts, baseOf t' = cls) → ∃ s, seqById cls c e.object = some s := by
    rintro ts ⟨t', ht', e', he', hid⟩ cls hc
    obtain ⟨k', hk'⟩ := List.mem_iff_getElem?.mp he'
    obtain ⟨o, _, h2, _⟩ := seq_ok h hk'
    rw [hid, hc t' ht'] at h2
    exact ⟨_, h2⟩
  have hp := power_present h ht he
  have fin : ∀ T ts, terminalOf e.terminal = some T → Present D e.object ts → (∀ t' ∈ ts, baseOf t' = powerSensorClass T) →
      ∃ T s, terminalOf e.terminal = some T ∧ seqById (powerSensorClass T) c e.object = some s := by
    intro T ts h1 h2 h3
    obtain ⟨s, hs⟩ := key ts h2 _ h3
    exact ⟨T, s, h1, hs⟩
  split_ifs at hp with h0 h2 h3 h4 h5 h6 h9
  · rcases h0 with h0 | h0
    · exact fin .branchFrom _ (by simp [terminalOf, h0]) hp (by decide)
    · exact fin .branchTo _ (by simp [terminalOf, h0]) hp (by decide)
  · exact fin .source _ (by simp [terminalOf, h2]) hp (by decide)
  · exact fin .shunt _ (by simp [terminalOf, h3]) hp (by decide)
  · exact fin .load _ (by simp [terminalOf, h4]) hp (by decide)
  · exact fin .generator _ (by simp [terminalOf, h5]) hp (by decide)
  · rcases h6 with h6 | h6 | h6
    · exact fin (.branch3 0) _ (by simp [terminalOf, h6]) hp (by decide)
    · exact fin (.branch3 1) _ (by simp [terminalOf, h6]) hp (by decide)
    · exact fin (.branch3 2) _ (by simp [terminalOf, h6]) hp (by decide)
  · exact fin .node _ (by simp [terminalOf, h9]) hp (by decide)
  · obtain ⟨_, ht', _⟩ := hp
    simp at ht'

theorem value_exists {O : Objects} {sol : List (Sol σ)} (hf : Fits O sol) {T : Terminal} {s : Nat} {m : Nat × Nat}
    (h : powerSensorMathId O T s = some m) : ∃ v, powerSensorValue sol T m = some v := by
  cases T with
  | branchFrom =>
    obtain ⟨x, h1, h2⟩ := hf.branch s m h
    obtain ⟨v, hv⟩ := at2_some (member := Sol.branch) h1 h2
    exact ⟨v.sF, by simp [powerSensorValue, hv]⟩
  | branchTo =>
    obtain ⟨x, h1, h2⟩ := hf.branch s m h
    obtain ⟨v, hv⟩ := at2_some (member := Sol.branch) h1 h2
    exact ⟨v.sT, by simp [powerSensorValue, hv]⟩
  | source =>
    obtain ⟨x, h1, h2⟩ := hf.source s m h
    obtain ⟨v, hv⟩ := at2_some (member := Sol.source) h1 h2
    exact ⟨v.s, by simp [powerSensorValue, hv]⟩
  | shunt =>
    obtain ⟨x, h1, h2⟩ := hf.shunt s m h
    obtain ⟨v, hv⟩ := at2_some (member := Sol.shunt) h1 h2
    exact ⟨v.s, by simp [powerSensorValue, hv]⟩
  | load =>
    obtain ⟨x, h1, h2⟩ := hf.loadGen s m h
    obtain ⟨v, hv⟩ := at2_some (member := Sol.loadGen) h1 h2
    exact ⟨v.s, by simp [powerSensorValue, hv]⟩
  | generator =>
    obtain ⟨x, h1, h2⟩ := hf.loadGen s m h
    obtain ⟨v, hv⟩ := at2_some (member := Sol.loadGen) h1 h2
    exact ⟨v.s, by simp [powerSensorValue, hv]⟩
  | branch3 j =>
    simp only [powerSensorMathId, Option.map_eq_some_iff] at h
    obtain ⟨m3, h3, rfl⟩ := h
    obtain ⟨x, h1, h2⟩ := hf.branch3 s m3 h3
    obtain ⟨v, hv⟩ := at2_some (member := Sol.branch) (m := (m3.1, m3.2 j)) h1 (h2 j)
    exact ⟨v.sF, by simp [powerSensorValue, hv]⟩
  | node =>
    obtain ⟨x, h1, _, h2⟩ := hf.node s m h
    exact at2_some (member := Sol.busInjection) h1 h2

/-! ## Property -/

/-- C34, power sensors. For every input from which a model can be built, every place of its components in the calculation and every result of the
calculation: the record of a power sensor exists and carries the ID of the sensor. Whatever power is reported at the terminal of the component that the sensor
refers to by ID, the residuals are the measured minus the reported active and reactive power, with the sign convention of that component. Otherwise the sensor is
reported as not energised with residuals zero, and the powers reported at the terminal are zero. -/
theorem power_sensor_residual {D : CompType → List (Elem K)} {c : Container (Comp K)} (h : build D = .ok c) (A : Attr) (O : Objects)
    (sol : List (Sol σ)) (hf : Fits O sol) (t : CompType) (ht : t ∈ [CompType.symPowerSensor, .asymPowerSensor]) (k : Nat) (e : Elem K)
    (hk : (D t)[k]? = some e) :
    ∃ out, (powerSensorRecords t A c O sol)[k]? = some (some out) ∧ out.id = e.id ∧
      (out.energized = true ∧ (∀ p q, Reports A c O sol e.terminal e.object p q →
          ∀ j, out.pResidual j = measuredP σ (A.power e.id) j - p j ∧ out.qResidual j = measuredQ σ (A.power e.id) j - q j) ∨
        out.energized = false ∧ out.pResidual = 0 ∧ out.qResidual = 0 ∧
          ∀ p q, Reports A c O sol e.terminal e.object p q → p = 0 ∧ q = 0) := by
  obtain ⟨T, s, hT, hs⟩ := power_target h ht (List.mem_of_getElem? hk)
  obtain ⟨o, _, h2, _, _, h5⟩ := seq_ok h hk
  have hb : baseOf t = .powerSensor := by fin_cases ht <;> rfl
  have hobj : registered .powerSensor c (powerSensorObject c) (o + k) = some s := by
    rw [← hb, h5]
    simp [powerSensorObject, hT, hs]
  have hrec : (powerSensorRecords t A c O sol)[k]? = some (powerSensorResult A O sol ⟨t, e⟩ s) := by
    unfold powerSensorRecords
    rw [produce_eq h hk h2, hobj]
    rfl
  rw [hrec]
  cases hm : powerSensorMathId O T s with
  | none =>
    refine ⟨powerSensorNull ⟨t, e⟩, by simp [powerSensorResult, hT, hm], rfl, .inr ⟨rfl, rfl, rfl, ?_⟩⟩
    intro p q hr
    have := reports_value h hr hT hs
    rw [hm] at this
    exact this
  | some m =>
    obtain ⟨v, hv⟩ := value_exists hf hm
    refine ⟨powerSensorOutput A ⟨t, e⟩ T v, by simp [powerSensorResult, hT, hm, hv], rfl, .inl ⟨rfl, ?_⟩⟩
    intro p q hr j
    have := reports_value h hr hT hs
    rw [hm] at this
    obtain ⟨h1, h2⟩ := this v hv j
    exact ⟨by rw [power_output_p, h1], by rw [power_output_q, h2]⟩

/-- The powers at the terminal of every power sensor are reported. -/
theorem power_sensor_terminal_reported {D : CompType → List (Elem K)} {c : Container (Comp K)} (h : build D = .ok c) (A : Attr) (O : Objects)
    (sol : List (Sol σ)) (hf : Fits O sol) (t : CompType) (ht : t ∈ [CompType.symPowerSensor, .asymPowerSensor]) (e : Elem K) (he : e ∈ D t) :
    ∃ p q, Reports A c O sol e.terminal e.object p q := by
  have hp := power_present h ht he
  have br : ∀ t', t' ∈ branchTypes → ∀ e' ∈ D t', ∃ r : BranchOut σ, some r ∈ branchRecords t' A c O sol ∧ r.id = e'.id := by
    intro t' ht' e' he'
    obtain ⟨k', hk'⟩ := List.mem_iff_getElem?.mp he'
    obtain ⟨r, h1, h2, _⟩ := (branch_records h A O sol hf t' ht').2 k' e' hk'
    exact ⟨r, List.mem_of_getElem? h1, h2⟩
  have ap : ∀ t', t' ∈ applianceTypes → ∀ e' ∈ D t', ∃ r : ApplOut σ, some r ∈ applRecords t' A c O sol ∧ r.id = e'.id := by
    intro t' ht' e' he'
    obtain ⟨k', hk'⟩ := List.mem_iff_getElem?.mp he'
    obtain ⟨r, h1, h2, _⟩ := (appliance_records h A O sol hf t' ht').2 k' e' hk'
    exact ⟨r, List.mem_of_getElem? h1, h2⟩
  obtain ⟨t', ht', e', he', hid⟩ := hp
  have hsub : ∀ t', t' ∈ [CompType.line, .asymLine, .genericBranch, .transformer] → t' ∈ branchTypes := by
    intro t' ht'; fin_cases ht' <;> decide
  have h3w : t' = .threeWindingTransformer → ∃ r : Branch3Out σ, some r ∈ branch3Records A c O sol ∧ r.id = e'.id := by
    rintro rfl
    obtain ⟨k', hk'⟩ := List.mem_iff_getElem?.mp he'
    obtain ⟨r, h1, h2, _⟩ := (branch3_records h A O sol hf).2 k' e' hk'
    exact ⟨r, List.mem_of_getElem? h1, h2⟩
  rw [← hid]
  split_ifs at ht' with h0 h2 h3 h4 h5 h6 h9
  · obtain ⟨r, h1, h2⟩ := br t' (hsub t' ht') e' he'
    rcases h0 with h0 | h0
    · rw [h0, ← h2]; exact ⟨_, _, .branchFrom t' r (hsub t' ht') h1⟩
    · rw [h0, ← h2]; exact ⟨_, _, .branchTo t' r (hsub t' ht') h1⟩
  · obtain ⟨r, h1, h3⟩ := ap t' (by simp only [List.mem_singleton] at ht'; subst ht'; decide) e' he'
    simp only [List.mem_singleton] at ht'
    subst ht'
    rw [h2, ← h3]; exact ⟨_, _, .source r h1⟩
  · obtain ⟨r, h1, h4⟩ := ap t' (by simp only [List.mem_singleton] at ht'; subst ht'; decide) e' he'
    simp only [List.mem_singleton] at ht'
    subst ht'
    rw [h3, ← h4]; exact ⟨_, _, .shunt r h1⟩
  · obtain ⟨r, h1, h5⟩ := ap t' (by fin_cases ht' <;> decide) e' he'
    rw [h4, ← h5]; exact ⟨_, _, .load t' r ht' h1⟩
  · obtain ⟨r, h1, h6⟩ := ap t' (by fin_cases ht' <;> decide) e' he'
    rw [h5, ← h6]; exact ⟨_, _, .generator t' r ht' h1⟩
  · obtain ⟨r, h1, h7⟩ := h3w (by simpa using ht')
    rcases h6 with h6 | h6 | h6
    · rw [h6, ← h7]; exact ⟨_, _, .branch3 0 r h1⟩
    · rw [h6, ← h7]; exact ⟨_, _, .branch3 1 r h1⟩
    · rw [h6, ← h7]; exact ⟨_, _, .branch3 2 r h1⟩
  · simp only [List.mem_singleton] at ht'
    subst ht'
    obtain ⟨k', hk'⟩ := List.mem_iff_getElem?.mp he'
    have hs := node_seq h hk'
    rw [h9]
    cases hm : O.node k' with
    | none => exact ⟨_, _, .nodeOff _ k' hs hm⟩
    | some m =>
      obtain ⟨x, h1, _, h2⟩ := hf.node k' m hm
      exact ⟨_, _, .node _ k' m x _ hs hm h1 (List.getElem?_eq_getElem h2)⟩
  · simp at ht'

end PGM.Output
