import Verif.Physical.Lemmas

/-!
# C59: transformers

A transformer is an ideal transformer whose ratio is that of the rated voltages of the windings at the present tap position, with the
phase shift of its clock, and a Π circuit at the to side whose impedances are those of the short-circuit and the no-load test.
-/

namespace PGM.Physical

open PGM.Component PGM.Update

/-! ## Specification -/

/-- The rated voltages of both windings at tap position `pos`: the side with the tap changer follows it. -/
def WindingVoltages (i : TrafoInput) (pos nom : Int) (u1 u2 : ℝ) : Prop :=
  (i.tapFrom = true → TapVoltage i.u1 i.tapSize pos nom i.tap.tapMin i.tap.tapMax u1 ∧ u2 = i.u2) ∧
  (i.tapFrom = false → u1 = i.u1 ∧ TapVoltage i.u2 i.tapSize pos nom i.tap.tapMin i.tap.tapMax u2)

/-- The nominal tap position: 0 if not given. -/
def NominalTap (t : TapInput) (nom : Int) : Prop := (t.tapNom ≠ -128 → nom = t.tapNom) ∧ (t.tapNom = -128 → nom = 0)

/-- An attribute that may be missing. -/
def Given (a : Option ℝ) (otherwise x : ℝ) : Prop := (∀ y, a = some y → x = y) ∧ (a = none → x = otherwise)

/-- The data of a transformer at tap position `pos`: the voltages of its windings, and its short-circuit voltage and losses. -/
structure AtTap (i : TrafoInput) (pos : Int) where
  nom : Int
  u1 : ℝ
  u2 : ℝ
  uk : ℝ
  pk : ℝ
  ukMin : ℝ
  ukMax : ℝ
  pkMin : ℝ
  pkMax : ℝ
  nominal : NominalTap i.tap nom
  windings : WindingVoltages i pos nom u1 u2
  ukMin_is : Given i.ukMin i.uk ukMin
  ukMax_is : Given i.ukMax i.uk ukMax
  pkMin_is : Given i.pkMin i.pk pkMin
  pkMax_is : Given i.pkMax i.pk pkMax
  uk_is : TapValue i.uk ukMin ukMax pos nom i.tap.tapMin i.tap.tapMax uk
  pk_is : TapValue i.pk pkMin pkMax pos nom i.tap.tapMin i.tap.tapMax pk

/-- Zero sequence no-load data: those given, otherwise the no-load current of the positive sequence, and the losses that the
current causes in addition in the windings. -/
def ZeroSequenceNoLoad (i : TrafoInput) (i0 p0 : ℝ) : Prop :=
  Given i.i0Zero i.i0 i0 ∧ Given i.p0Zero (i.p0 + i.pk * (i0 ^ 2 - i.i0 ^ 2)) p0

/-- A grounding impedance in ohm; parts that are not given are zero. -/
def Grounding (r x : Option ℝ) (z : ℂ) : Prop := Given r 0 z.re ∧ Given x 0 z.im

/-- The zero sequence admittance to earth behind a winding whose star point is earthed, for impedance `z` and no-load admittance `y0`,
unless both windings are earthed stars. -/
noncomputable def earthAdmittance (this other : Winding) (z y0 : ℂ) : ℂ :=
  match this, other with
  | .wyeN, .delta => y0 + 1 / z
  | .wyeN, _ => y0
  | .zigzagN, _ => 10 / z
  | _, _ => 0

/-! ## Lemmas -/

theorem tapAdjust_value (x xmin xmax : ℝ) (pos nom tmin tmax : Int) :
    TapValue x xmin xmax pos nom tmin tmax (tapAdjust (pos : ℝ) tmin tmax nom x xmin xmax) := by
  unfold TapValue
  have hc : ∀ a b : Int, (a : ℝ) = (b : ℝ) ↔ a = b := fun a b => Int.cast_inj
  constructor
  · intro h
    rw [between_iff] at h
    unfold tapAdjust
    rw [if_pos h]
    by_cases he : tmax = nom
    · rw [if_pos (by rw [hc]; exact he)]
      exact ⟨fun _ => rfl, fun h' => absurd he h'⟩
    · rw [if_neg (by rw [hc]; exact he)]
      refine ⟨fun h' => absurd h' he, fun _ => ?_⟩
      have : (tmax : ℝ) - nom ≠ 0 := sub_ne_zero.mpr (by rw [Ne, hc]; exact he)
      unfold OnLine
      field_simp
      ring
  · intro h
    rw [between_iff] at h
    unfold tapAdjust
    rw [if_neg h]
    by_cases he : tmin = nom
    · rw [if_pos (by rw [hc]; exact he)]
      exact ⟨fun _ => rfl, fun h' => absurd he h'⟩
    · rw [if_neg (by rw [hc]; exact he)]
      refine ⟨fun h' => absurd h' he, fun _ => ?_⟩
      have : (tmin : ℝ) - nom ≠ 0 := sub_ne_zero.mpr (by rw [Ne, hc]; exact he)
      unfold OnLine
      field_simp
      ring

/-- Tap values are unique. -/
theorem tapValue_unique (x xmin xmax : ℝ) (pos nom tmin tmax : Int) (y z : ℝ) (hy : TapValue x xmin xmax pos nom tmin tmax y)
    (hz : TapValue x xmin xmax pos nom tmin tmax z) : y = z := by
  have hline : ∀ (t : Int) (v : ℝ), t ≠ nom → OnLine (nom : ℝ) x t v pos y → OnLine (nom : ℝ) x t v pos z → y = z := by
    intro t v ht h1 h2
    unfold OnLine at h1 h2
    have : (t : ℝ) - nom ≠ 0 := sub_ne_zero.mpr (by exact_mod_cast ht)
    exact mul_right_cancel₀ this (h1.trans h2.symm)
  by_cases hb : Between (nom : ℝ) tmax pos
  · by_cases he : tmax = nom
    · rw [(hy.1 hb).1 he, (hz.1 hb).1 he]
    · exact hline tmax xmax he ((hy.1 hb).2 he) ((hz.1 hb).2 he)
  · by_cases he : tmin = nom
    · rw [(hy.2 hb).1 he, (hz.2 hb).1 he]
    · exact hline tmin xmin he ((hy.2 hb).2 he) ((hz.2 hb).2 he)

theorem given_getD (a : Option ℝ) (d : ℝ) : Given a d (a.getD d) := by
  unfold Given
  cases a <;> simp

theorem given_unique (a : Option ℝ) (d x y : ℝ) (hx : Given a d x) (hy : Given a d y) : x = y := by
  unfold Given at hx hy
  cases a with
  | none => rw [hx.2 rfl, hy.2 rfl]
  | some z => rw [hx.1 z rfl, hy.1 z rfl]

theorem nominal_eq (t : TapInput) (nom : Int) (h : NominalTap t nom) : initialNom t = nom := by
  unfold NominalTap at h
  unfold initialNom naIntS
  split
  · rename_i h1; exact (h.2 h1).symm
  · rename_i h1; exact (h.1 h1).symm

theorem tapped_eq (u size : ℝ) (pos nom : Int) (t : TapInput) (u' : ℝ) (h : TapVoltage u size pos nom t.tapMin t.tapMax u') :
    u + tapDirection t * ((pos - nom : Int) : ℝ) * size = u' := by
  unfold TapVoltage at h
  unfold tapDirection
  split
  · rename_i hd
    rw [h.1 hd]; push_cast; ring
  · rename_i hd
    rw [h.2 (by omega)]; push_cast; ring

/-- The data that the code computes are those of the specification. -/
theorem trafoData_eq (i : TrafoInput) (pos : Int) (d : AtTap i pos) (u1r u2r : ℝ) :
    trafoData i pos u1r u2r = ⟨d.u1, d.u2, i.sn, d.uk, d.pk, i.i0, i.p0, u1r, u2r⟩ := by
  have hn := nominal_eq i.tap d.nom d.nominal
  have hv : tappedVoltages i pos = (d.u1, d.u2) := by
    unfold tappedVoltages
    rw [hn]
    cases hf : i.tapFrom with
    | true =>
      rw [if_pos rfl]
      obtain ⟨h1, h2⟩ := d.windings.1 hf
      rw [tapped_eq _ _ _ _ _ _ h1, h2]
    | false =>
      rw [if_neg (by simp)]
      obtain ⟨h1, h2⟩ := d.windings.2 hf
      rw [tapped_eq _ _ _ _ _ _ h2, h1]
  have huk : tapAdjust (pos : ℝ) i.tap.tapMin i.tap.tapMax (initialNom i.tap) i.uk (i.ukMin.getD i.uk) (i.ukMax.getD i.uk) = d.uk := by
    rw [hn, given_unique _ _ _ _ (given_getD i.ukMin i.uk) d.ukMin_is, given_unique _ _ _ _ (given_getD i.ukMax i.uk) d.ukMax_is]
    exact tapValue_unique _ _ _ _ _ _ _ _ _ (tapAdjust_value _ _ _ _ _ _ _) d.uk_is
  have hpk : tapAdjust (pos : ℝ) i.tap.tapMin i.tap.tapMax (initialNom i.tap) i.pk (i.pkMin.getD i.pk) (i.pkMax.getD i.pk) = d.pk := by
    rw [hn, given_unique _ _ _ _ (given_getD i.pkMin i.pk) d.pkMin_is, given_unique _ _ _ _ (given_getD i.pkMax i.pk) d.pkMax_is]
    exact tapValue_unique _ _ _ _ _ _ _ _ _ (tapAdjust_value _ _ _ _ _ _ _) d.pk_is
  unfold trafoData
  rw [hv, huk, hpk]

/-- The series impedance reproduces the short-circuit test. -/
theorem shortCircuit_of (d : TransformerData) (hs : 0 < d.sn) (hu : 0 < d.u2) (hle : |d.pk| ≤ |d.uk| * d.sn) :
    ShortCircuitTest (seriesImpedance d) d.u2 d.sn d.uk d.pk := by
  obtain ⟨h1, h2, h3⟩ := series_reproduces d hs hle
  have h4 := sqrt3_sq
  have h5 : (√3 : ℝ) ^ 2 = 3 := by rw [sq]; exact h4
  have h6 := sqrt3_ne
  unfold ShortCircuitTest ratedCurrent
  refine ⟨?_, ?_, h3⟩
  · rw [h1]
    field_simp
    rw [h5]
  · rw [h2]
    field_simp

/-- The shunt admittance reproduces the no-load test. -/
theorem noLoad_of (d : TransformerData) (hs : 0 < d.sn) (hu : 0 < d.u2) (hi : 0 ≤ d.i0) (hle : |d.p0| ≤ d.i0 * d.sn) :
    NoLoadTest (shuntAdmittance d) d.u2 d.sn d.i0 d.p0 := by
  obtain ⟨h1, h2, h3⟩ := shunt_reproduces d hs hu.ne' hi hle
  have h4 := sqrt3_sq
  have h5 : (√3 : ℝ) ^ 2 = 3 := by rw [sq]; exact h4
  have h6 := sqrt3_ne
  unfold NoLoadTest ratedCurrent
  refine ⟨?_, ?_, h3⟩
  · rw [h1]
    field_simp
    rw [h5]
  · rw [h2]
    field_simp

/-- A sequence sees exactly its own two-port. -/
theorem transformer3_iff (f t : Bool) (d : TransformerSeq) (uf ut jf jt : ℂ) :
    (Flows3 (transformerAsym f t d) (uf • posSeq) (ut • posSeq) (jf • posSeq) (jt • posSeq) ↔
      Flows (transformerSym f t d) uf ut jf jt) ∧
    (Flows3 (transformerAsym f t d) (uf • negSeq) (ut • negSeq) (jf • negSeq) (jt • negSeq) ↔
      Flows (transformerSym f t { d with clock := -d.clock }) uf ut jf jt) ∧
    (Flows3 (transformerAsym f t d) (uf • zeroSeq) (ut • zeroSeq) (jf • zeroSeq) (jt • zeroSeq) ↔
      Flows (transformerZeroLow f t d) uf ut jf jt) := by
  have h1 : ∀ (s : C3) (x y : ℂ), s 0 = 1 → x • s = y • s → x = y := by
    intro s x y hs h
    have := congrFun h 0
    simpa [hs] using this
  have key : ∀ (s : C3) (p : BranchParam ℂ), s 0 = 1 →
      (∀ jf jt, Flows p uf ut jf jt → Flows3 (transformerAsym f t d) (uf • s) (ut • s) (jf • s) (jt • s)) →
      (Flows3 (transformerAsym f t d) (uf • s) (ut • s) (jf • s) (jt • s) ↔ Flows p uf ut jf jt) := by
    intro s p hs h
    refine ⟨fun h3 => ?_, h jf jt⟩
    obtain ⟨e1, e2⟩ := h (p.yff * uf + p.yft * ut) (p.ytf * uf + p.ytt * ut) ⟨rfl, rfl⟩
    obtain ⟨e3, e4⟩ := h3
    exact ⟨h1 s _ _ hs (e3.trans e1.symm), h1 s _ _ hs (e4.trans e2.symm)⟩
  have hp : posSeq 0 = 1 := rfl
  have hn : negSeq 0 = 1 := rfl
  have hz : zeroSeq 0 = 1 := rfl
  exact ⟨key _ _ hp fun jf jt => (transformer3_sequences f t d uf ut jf jt).1,
    key _ _ hn fun jf jt => (transformer3_sequences f t d uf ut jf jt).2.1,
    key _ _ hz fun jf jt => (transformer3_sequences f t d uf ut jf jt).2.2⟩

/-! ## C59 -/

/-- C59: every accepted transformer, at every tap position, is in symmetric calculations the switched Π circuit behind an ideal
transformer with ratio `u1 : u2` and the phase shift of the clock; its impedance and admittance at the to side are those of its
short-circuit test and its no-load test. In three phases a positive sequence sees the same circuit, and a negative sequence the one
with the opposite phase shift. The tests determine an impedance only if the losses do not exceed the apparent power. -/
theorem transformer_physical (i : TrafoInput) (pos : Int) (u1r u2r : ℝ) (p : TransformerSeq) (hp : mkTrafo i pos u1r u2r = .ok p)
    (hs : 0 < i.sn) (h1r : u1r ≠ 0) (h2r : u2r ≠ 0) (d : AtTap i pos) (hu1 : d.u1 ≠ 0) (hu2 : 0 < d.u2)
    (hsc : |d.pk| ≤ |d.uk| * i.sn) (hi0 : 0 ≤ i.i0) (hnl : |i.p0| ≤ i.i0 * i.sn) :
    ∃ z y : ℂ, ShortCircuitTest z d.u2 i.sn d.uk d.pk ∧ NoLoadTest y d.u2 i.sn i.i0 i.p0 ∧
      ∀ f t, OpenEnd f t u2r (1 / z) y → ∀ n n' : ℂ,
        n = ((d.u1 / d.u2 : ℝ) : ℂ) * Complex.exp (i.clock * (Real.pi / 6) * Complex.I) →
        n' = ((d.u1 / d.u2 : ℝ) : ℂ) * Complex.exp (-(i.clock * (Real.pi / 6) * Complex.I)) → ∀ uf ut jf jt : ℂ,
        (Flows (transformerSym f t p) uf ut jf jt ↔
          SwitchedBranch f t (1 / z) y n (volts u1r uf) (volts u2r ut) (amps u1r jf) (amps u2r jt)) ∧
        (Flows3 (transformerAsym f t p) (uf • posSeq) (ut • posSeq) (jf • posSeq) (jt • posSeq) ↔
          SwitchedBranch f t (1 / z) y n (volts u1r uf) (volts u2r ut) (amps u1r jf) (amps u2r jt)) ∧
        (Flows3 (transformerAsym f t p) (uf • negSeq) (ut • negSeq) (jf • negSeq) (jt • negSeq) ↔
          SwitchedBranch f t (1 / z) y n' (volts u1r uf) (volts u2r ut) (amps u1r jf) (amps u2r jt)) := by
  unfold mkTrafo at hp
  cases hc : transformerClock i.clock i.windingFrom i.windingTo with
  | none => rw [hc] at hp; cases hp
  | some c =>
    rw [hc] at hp
    cases hp
    have hphase := clock_phase i.clock c _ _ hc
    have hphase' : phaseFactor (-c) = phaseFactor (-i.clock) :=
      phaseFactor_congr _ _ (clock_stored i.clock c _ _ hc).2.2.neg
    have hd := trafoData_eq i pos d u1r u2r
    refine ⟨seriesImpedance ⟨d.u1, d.u2, i.sn, d.uk, d.pk, i.i0, i.p0, u1r, u2r⟩,
      shuntAdmittance ⟨d.u1, d.u2, i.sn, d.uk, d.pk, i.i0, i.p0, u1r, u2r⟩,
      shortCircuit_of ⟨d.u1, d.u2, i.sn, d.uk, d.pk, i.i0, i.p0, u1r, u2r⟩ hs hu2 hsc,
      noLoad_of ⟨d.u1, d.u2, i.sn, d.uk, d.pk, i.i0, i.p0, u1r, u2r⟩ hs hu2 hi0 hnl, ?_⟩
    intro f t ho n n' hn hn' uf ut jf jt
    have hq : (d.u1 / d.u2 : ℝ) ≠ 0 := div_ne_zero hu1 hu2.ne'
    have hqc : ((d.u1 / d.u2 : ℝ) : ℂ) ≠ 0 := by exact_mod_cast hq
    have hrc : ((u1r / u2r : ℝ) : ℂ) ≠ 0 := by exact_mod_cast div_ne_zero h1r h2r
    have hn0 : n ≠ 0 := by rw [hn]; exact mul_ne_zero hqc (Complex.exp_ne_zero _)
    have hn0' : n' ≠ 0 := by rw [hn']; exact mul_ne_zero hqc (Complex.exp_ne_zero _)
    have hk : ((trafoParams i c pos u1r u2r).k : ℂ) = ((d.u1 / d.u2 : ℝ) : ℂ) / ((u1r / u2r : ℝ) : ℂ) := by
      unfold trafoParams
      dsimp only
      rw [hd]
      unfold tapRatio
      push_cast
      rfl
    have hratio : ((trafoParams i c pos u1r u2r).k : ℂ) * phaseFactor c = n / ((u1r / u2r : ℝ) : ℂ) := by
      rw [hphase, hk, hn]
      unfold phaseFactor
      rw [mul_comm Complex.I, div_mul_eq_mul_div]
    have hratio' : ((trafoParams i c pos u1r u2r).k : ℂ) * phaseFactor (-c) = n' / ((u1r / u2r : ℝ) : ℂ) := by
      rw [hphase', hk, hn']
      unfold phaseFactor
      rw [mul_comm Complex.I, div_mul_eq_mul_div]
      push_cast
      rw [neg_mul, neg_mul]
    have hy : (trafoParams i c pos u1r u2r).ySeries =
        1 / seriesImpedance ⟨d.u1, d.u2, i.sn, d.uk, d.pk, i.i0, i.p0, u1r, u2r⟩ / ((10 ^ 6 / u2r ^ 2 : ℝ) : ℂ) := by
      unfold trafoParams
      dsimp only
      rw [hd, baseYTo_eq u2r h2r]
    have hsh : (trafoParams i c pos u1r u2r).yShunt =
        shuntAdmittance ⟨d.u1, d.u2, i.sn, d.uk, d.pk, i.i0, i.p0, u1r, u2r⟩ / ((10 ^ 6 / u2r ^ 2 : ℝ) : ℂ) := by
      unfold trafoParams
      dsimp only
      rw [hd, baseYTo_eq u2r h2r]
    have hpos : Flows (transformerSym f t (trafoParams i c pos u1r u2r)) uf ut jf jt ↔
        SwitchedBranch f t (1 / seriesImpedance ⟨d.u1, d.u2, i.sn, d.uk, d.pk, i.i0, i.p0, u1r, u2r⟩)
          (shuntAdmittance ⟨d.u1, d.u2, i.sn, d.uk, d.pk, i.i0, i.p0, u1r, u2r⟩) n (volts u1r uf) (volts u2r ut) (amps u1r jf)
          (amps u2r jt) := by
      rw [← branch_units f t u1r u2r h1r h2r _ _ n hn0 ho, ← hratio, ← hy, ← hsh]
      rfl
    have hneg : Flows (transformerSym f t { trafoParams i c pos u1r u2r with clock := -c }) uf ut jf jt ↔
        SwitchedBranch f t (1 / seriesImpedance ⟨d.u1, d.u2, i.sn, d.uk, d.pk, i.i0, i.p0, u1r, u2r⟩)
          (shuntAdmittance ⟨d.u1, d.u2, i.sn, d.uk, d.pk, i.i0, i.p0, u1r, u2r⟩) n' (volts u1r uf) (volts u2r ut) (amps u1r jf)
          (amps u2r jt) := by
      rw [← branch_units f t u1r u2r h1r h2r _ _ n' hn0' ho, ← hratio', ← hy, ← hsh]
      rfl
    obtain ⟨s1, s2, -⟩ := transformer3_iff f t (trafoParams i c pos u1r u2r) uf ut jf jt
    exact ⟨hpos, s1.trans hpos, s2.trans hneg⟩

/-- C59: a transformer whose vector group does not exist is refused. -/
theorem transformer_refused (i : TrafoInput) (pos : Int) (u1r u2r : ℝ) :
    mkTrafo i pos u1r u2r = .error .invalidTransformerClock ↔ ¬ VectorGroupExists i.clock i.windingFrom i.windingTo := by
  rw [← clock_accepted_iff]
  unfold mkTrafo
  cases transformerClock i.clock i.windingFrom i.windingTo <;> simp

/-! ### Zero sequence -/

theorem zero_data (i : TrafoInput) (i0 p0 : ℝ) (hz : ZeroSequenceNoLoad i i0 p0) : i.i0z = i0 ∧ i.p0z = p0 := by
  have hi0z : i.i0z = i0 := given_unique _ _ _ _ (given_getD _ _) hz.1
  refine ⟨hi0z, given_unique _ _ _ _ (given_getD _ _) ?_⟩
  rw [hi0z, ← sq, ← sq]
  exact hz.2

theorem grounding_data (r x : Option ℝ) (g : ℂ) (u : ℝ) (hg : Grounding r x g) :
    groundingPu r x u = g / ((u ^ 2 / 10 ^ 6 : ℝ) : ℂ) := by
  have e1 := given_unique _ _ _ _ (given_getD r 0) hg.1
  have e2 := given_unique _ _ _ _ (given_getD x 0) hg.2
  unfold groundingPu basePower3p
  rw [e1, e2]
  apply Complex.ext
  · rw [Complex.div_ofReal_re, sq]; norm_num
  · rw [Complex.div_ofReal_im, sq]; norm_num

theorem earthed_scale (Y zg k u j : ℂ) (bf bt cf ct : ℝ) (hbf : bf ≠ 0) (hbt : bt ≠ 0) (hcf : cf ≠ 0) (hct : ct ≠ 0)
    (hp : cf * bf = ct * bt) (h : EarthedWinding Y zg k u j) :
    EarthedWinding (Y * (ct / bt : ℝ)) (zg * (bf / cf : ℝ)) (k * (bf / bt : ℝ)) (bf * u) (cf * j) := by
  have h1 : (bf : ℂ) ≠ 0 := by exact_mod_cast hbf
  have h2 : (bt : ℂ) ≠ 0 := by exact_mod_cast hbt
  have h3 : (cf : ℂ) ≠ 0 := by exact_mod_cast hcf
  have h4 : (ct : ℂ) ≠ 0 := by exact_mod_cast hct
  have hp' : (cf : ℂ) * bf = ct * bt := by exact_mod_cast hp
  obtain ⟨v, e1, e2⟩ := h
  refine ⟨bt * v, ?_, ?_⟩
  · rw [e1]
    push_cast
    field_simp
  · push_cast
    have : (k : ℂ) * (bf / bt) * (cf * j) = (k * j) * (cf * bf / bt) := by ring
    rw [this, e2, hp']
    field_simp

/-- C59, zero sequence: unless both windings are earthed stars, each closed side of a transformer is on its own, with the winding's
earth admittance behind the grounding impedance (in which three times the current flows); sides without a zero sequence path have
only a susceptance of a hundred millionth of `sn / (uk u²)`. -/
theorem transformer_zero_physical (i : TrafoInput) (pos : Int) (u1r u2r : ℝ) (p : TransformerSeq)
    (hp : mkTrafo i pos u1r u2r = .ok p) (hs : 0 < i.sn) (h1r : u1r ≠ 0) (h2r : u2r ≠ 0) (d : AtTap i pos) (hu1 : d.u1 ≠ 0)
    (hu2 : 0 < d.u2) (huk : i.uk ≠ 0) (hsc : |d.pk| ≤ |d.uk| * i.sn) (huk' : d.uk ≠ 0) (i0 p0 : ℝ) (hz : ZeroSequenceNoLoad i i0 p0)
    (hi0 : 0 ≤ i0) (hnl : |p0| ≤ i0 * i.sn) (zf zt : ℂ) (hzf : Grounding i.rgFrom i.xgFrom zf)
    (hzt : Grounding i.rgTo i.xgTo zt) (hw : ¬ (i.windingFrom = .wyeN ∧ i.windingTo = .wyeN)) :
    ∃ z y0 : ℂ, ShortCircuitTest z d.u2 i.sn d.uk d.pk ∧ NoLoadTest y0 d.u2 i.sn i0 p0 ∧
      (((d.u1 / d.u2 : ℝ) : ℂ) ^ 2 + 3 * zf * earthAdmittance i.windingFrom i.windingTo z y0 ≠ 0 →
       1 + 3 * zt * earthAdmittance i.windingTo i.windingFrom z y0 ≠ 0 →
       ∀ (f t : Bool) (uf ut jf jt : ℂ),
        Flows3 (transformerAsym f t p) (uf • zeroSeq) (ut • zeroSeq) (jf • zeroSeq) (jt • zeroSeq) →
        (f = true → ∃ j j', amps u1r jf = j + j' ∧
          EarthedWinding (earthAdmittance i.windingFrom i.windingTo z y0) zf ((d.u1 / d.u2 : ℝ) : ℂ) (volts u1r uf) j ∧
          (Blocked i.windingFrom i.windingTo → j' = -(10 ^ (-8 : ℤ) * i.sn / (i.uk * u1r ^ 2) : ℝ) * Complex.I * volts u1r uf) ∧
          (¬ Blocked i.windingFrom i.windingTo → j' = 0)) ∧
        (t = true → ∃ j j', amps u2r jt = j + j' ∧
          EarthedWinding (earthAdmittance i.windingTo i.windingFrom z y0) zt 1 (volts u2r ut) j ∧
          (Blocked i.windingTo i.windingFrom → j' = -(10 ^ (-8 : ℤ) * i.sn / (i.uk * u2r ^ 2) : ℝ) * Complex.I * volts u2r ut) ∧
          (¬ Blocked i.windingTo i.windingFrom → j' = 0))) := by
  unfold mkTrafo at hp
  cases hc : transformerClock i.clock i.windingFrom i.windingTo with
  | none => rw [hc] at hp; cases hp
  | some c =>
    rw [hc] at hp
    cases hp
    have hd := trafoData_eq i pos d u1r u2r
    obtain ⟨hi0z, hp0z⟩ := zero_data i i0 p0 hz
    set D : TransformerData := ⟨d.u1, d.u2, i.sn, d.uk, d.pk, i.i0, i.p0, u1r, u2r⟩ with hD
    set D0 : TransformerData := ⟨d.u1, d.u2, i.sn, d.uk, d.pk, i0, p0, u1r, u2r⟩ with hD0
    have hST := shortCircuit_of D hs hu2 hsc
    refine ⟨seriesImpedance D, shuntAdmittance D0, hST, noLoad_of D0 hs hu2 hi0 hnl, ?_⟩
    have hz0 : seriesImpedance D ≠ 0 := by
      intro h0
      have h2 := hST.2.1
      rw [h0, norm_zero, mul_zero] at h2
      have : 0 < |d.uk| * (d.u2 / √3) := mul_pos (abs_pos.mpr huk') (div_pos hu2 (by positivity))
      exact this.ne h2
    intro hne1 hne2 f t uf ut jf jt hfl3
    have hfl := (transformer3_iff f t (trafoParams i c pos u1r u2r) uf ut jf jt).2.2.mp hfl3
    obtain ⟨b1, b2, b3, b4, b5, b6, b7⟩ := bases u1r u2r h1r h2r
    have hb : (10 ^ 6 / u2r ^ 2 : ℝ) ≠ 0 := by positivity
    have hbc : ((10 ^ 6 / u2r ^ 2 : ℝ) : ℂ) ≠ 0 := by exact_mod_cast hb
    have hr : (u1r / u2r : ℝ) ≠ 0 := div_ne_zero h1r h2r
    have hrc : ((u1r / u2r : ℝ) : ℂ) ≠ 0 := by exact_mod_cast hr
    have hq : (d.u1 / d.u2 : ℝ) ≠ 0 := div_ne_zero hu1 hu2.ne'
    set P := trafoParams i c pos u1r u2r with hP
    have hk : P.k = (d.u1 / d.u2) / (u1r / u2r) := by
      rw [hP]; unfold trafoParams; dsimp only; rw [hd]; rfl
    have hkc : (P.k : ℂ) = ((d.u1 / d.u2 : ℝ) : ℂ) / ((u1r / u2r : ℝ) : ℂ) := by rw [hk]; push_cast; rfl
    have hy : P.ySeries = 1 / seriesImpedance D / ((10 ^ 6 / u2r ^ 2 : ℝ) : ℂ) := by
      rw [hP]; unfold trafoParams; dsimp only; rw [hd, baseYTo_eq u2r h2r]
    have hy0 : P.y0Shunt = shuntAdmittance D0 / ((10 ^ 6 / u2r ^ 2 : ℝ) : ℂ) := by
      rw [hP]; unfold trafoParams; dsimp only; rw [hd, baseYTo_eq u2r h2r, hi0z, hp0z]
    have hearth : ∀ a b, earthPath P a b = earthAdmittance a b (seriesImpedance D) (shuntAdmittance D0) /
        ((10 ^ 6 / u2r ^ 2 : ℝ) : ℂ) := by
      intro a b
      unfold earthPath earthAdmittance
      rw [hy, hy0]
      cases a <;> cases b <;> simp <;> ring
    have hgf : P.zgFrom = zf / ((u1r ^ 2 / 10 ^ 6 : ℝ) : ℂ) := grounding_data _ _ _ _ hzf
    have hgt : P.zgTo = zt / ((u2r ^ 2 / 10 ^ 6 : ℝ) : ℂ) := grounding_data _ _ _ _ hzt
    have hwf : P.windingFrom = i.windingFrom := rfl
    have hwt : P.windingTo = i.windingTo := rfl
    have hlow : P.lowSusceptance = -(10 ^ (-8 : ℤ)) * i.sn / 10 ^ 6 / i.uk := by
      rw [hP]; unfold trafoParams basePower3p; dsimp only
      norm_num
    have hzu1 : ((u1r ^ 2 / 10 ^ 6 : ℝ) : ℂ) ≠ 0 := by
      have : (u1r ^ 2 / 10 ^ 6 : ℝ) ≠ 0 := by positivity
      exact_mod_cast this
    have hu1c : (u1r : ℂ) ≠ 0 := by exact_mod_cast h1r
    have hu2c : (u2r : ℂ) ≠ 0 := by exact_mod_cast h2r
    have hmain := transformer_zero_sequence f t P (by rw [hwf, hwt]; exact hw)
      (by rw [hk]; exact div_ne_zero hq hr)
      (by rw [hy]; exact div_ne_zero (one_div_ne_zero hz0) hbc)
      (by
        rw [hwf, hwt, hearth, hgf, hkc]
        intro h0
        apply hne1
        have e : ((d.u1 / d.u2 : ℝ) : ℂ) / ((u1r / u2r : ℝ) : ℂ) * (((d.u1 / d.u2 : ℝ) : ℂ) / ((u1r / u2r : ℝ) : ℂ)) +
            3 * (zf / ((u1r ^ 2 / 10 ^ 6 : ℝ) : ℂ)) * (earthAdmittance i.windingFrom i.windingTo (seriesImpedance D)
              (shuntAdmittance D0) / ((10 ^ 6 / u2r ^ 2 : ℝ) : ℂ)) =
            (((d.u1 / d.u2 : ℝ) : ℂ) ^ 2 + 3 * zf * earthAdmittance i.windingFrom i.windingTo (seriesImpedance D)
              (shuntAdmittance D0)) * ((u2r : ℂ) ^ 2 / u1r ^ 2) := by
          push_cast
          field_simp
        rw [e] at h0
        rcases mul_eq_zero.mp h0 with h | h
        · exact h
        · exact absurd h (div_ne_zero (pow_ne_zero _ hu2c) (pow_ne_zero _ hu1c)))
      (by
        rw [hwf, hwt, hearth, hgt]
        intro h0
        apply hne2
        rw [← h0]
        push_cast
        field_simp)
      uf ut jf jt hfl
    have hlowf : ∀ (u : ℝ) (v : ℂ), u ≠ 0 → amps u (Complex.I * P.lowSusceptance * v) =
        -(10 ^ (-8 : ℤ) * i.sn / (i.uk * u ^ 2) : ℝ) * Complex.I * volts u v := by
      intro u v hu
      rw [hlow]
      unfold amps volts
      have h3 := sqrt3_ne
      have : (10 ^ 6 / (√3 * u) : ℝ) * (-(10 ^ (-8 : ℤ)) * i.sn / 10 ^ 6 / i.uk) =
          -(10 ^ (-8 : ℤ) * i.sn / (i.uk * u ^ 2)) * (u / √3) := by
        field_simp
      have hcast : ((10 ^ 6 / (√3 * u) : ℝ) : ℂ) * ((-(10 ^ (-8 : ℤ)) * i.sn / 10 ^ 6 / i.uk : ℝ) : ℂ) =
          -((10 ^ (-8 : ℤ) * i.sn / (i.uk * u ^ 2) : ℝ) : ℂ) * ((u / √3 : ℝ) : ℂ) := by
        rw [← Complex.ofReal_mul, this, Complex.ofReal_mul, Complex.ofReal_neg]
      linear_combination (Complex.I * v) * hcast
    have hadd : ∀ (u : ℝ) (x y : ℂ), amps u (x + y) = amps u x + amps u y := fun u x y => by unfold amps; ring
    constructor
    · intro hf
      obtain ⟨j, j', e1, e2, e3, e4⟩ := hmain.1 hf
      rw [hwf, hwt] at e2 e3 e4
      refine ⟨amps u1r j, amps u1r j', by rw [e1, hadd], ?_, fun h => ?_, fun h => ?_⟩
      · have := earthed_scale _ _ _ _ _ _ _ _ _ b1 b2 b3 b4 b5 e2
        have hbase : (u1r / √3) / (10 ^ 6 / (√3 * u1r)) = u1r ^ 2 / 10 ^ 6 := by
          have h3 := sqrt3_ne
          field_simp
        rw [b6, b7, hearth, hgf, hkc, hbase, div_mul_cancel₀ _ hbc, div_mul_cancel₀ _ hzu1, div_mul_cancel₀ _ hrc] at this
        exact this
      · rw [e3 h]; exact hlowf u1r uf h1r
      · rw [e4 h]; unfold amps; rw [mul_zero]
    · intro ht
      obtain ⟨j, j', e1, e2, e3, e4⟩ := hmain.2 ht
      rw [hwf, hwt] at e2 e3 e4
      refine ⟨amps u2r j, amps u2r j', by rw [e1, hadd], ?_, fun h => ?_, fun h => ?_⟩
      · have := earthed_scale _ _ _ _ _ _ _ _ _ b2 b2 b4 b4 rfl e2
        have hbase : (u2r / √3) / (10 ^ 6 / (√3 * u2r)) = u2r ^ 2 / 10 ^ 6 := by
          have h3 := sqrt3_ne
          field_simp
        have hzu2 : ((u2r ^ 2 / 10 ^ 6 : ℝ) : ℂ) ≠ 0 := by
          have : (u2r ^ 2 / 10 ^ 6 : ℝ) ≠ 0 := by positivity
          exact_mod_cast this
        rw [b6, hearth, hgt, hbase, div_mul_cancel₀ _ hbc, div_mul_cancel₀ _ hzu2, div_self b2, Complex.ofReal_one, mul_one] at this
        exact this
      · rw [e3 h]; exact hlowf u2r ut h2r
      · rw [e4 h]; unfold amps; rw [mul_zero]

/-- C59, zero sequence with two earthed stars: the Π circuit with three times both grounding impedances in series. -/
theorem transformer_zero_physical_ynyn (i : TrafoInput) (pos : Int) (u1r u2r : ℝ) (p : TransformerSeq)
    (hp : mkTrafo i pos u1r u2r = .ok p) (hs : 0 < i.sn) (h1r : u1r ≠ 0) (h2r : u2r ≠ 0) (d : AtTap i pos) (hu1 : d.u1 ≠ 0)
    (hu2 : 0 < d.u2) (hsc : |d.pk| ≤ |d.uk| * i.sn) (i0 p0 : ℝ) (hz : ZeroSequenceNoLoad i i0 p0)
    (hi0 : 0 ≤ i0) (hnl : |p0| ≤ i0 * i.sn) (zf zt : ℂ) (hzf : Grounding i.rgFrom i.xgFrom zf)
    (hzt : Grounding i.rgTo i.xgTo zt) (hwf : i.windingFrom = .wyeN) (hwt : i.windingTo = .wyeN) (n : ℂ)
    (hn : n = if i.clock % 12 ∈ [2, 6, 10] then -((d.u1 / d.u2 : ℝ) : ℂ) else ((d.u1 / d.u2 : ℝ) : ℂ)) :
    ∃ z y0 : ℂ, ShortCircuitTest z d.u2 i.sn d.uk d.pk ∧ NoLoadTest y0 d.u2 i.sn i0 p0 ∧ ∀ z0 : ℂ,
      z0 = z + 3 * (zt + zf / ((d.u1 / d.u2 : ℝ) : ℂ) ^ 2) → ∀ f t,
      OpenEnd f t u2r (1 / z0) y0 → ∀ uf ut jf jt : ℂ,
        Flows3 (transformerAsym f t p) (uf • zeroSeq) (ut • zeroSeq) (jf • zeroSeq) (jt • zeroSeq) ↔
        SwitchedBranch f t (1 / z0) y0 n (volts u1r uf) (volts u2r ut) (amps u1r jf) (amps u2r jt) := by
  unfold mkTrafo at hp
  cases hc : transformerClock i.clock i.windingFrom i.windingTo with
  | none => rw [hc] at hp; cases hp
  | some c =>
    rw [hc] at hp
    cases hp
    have hd := trafoData_eq i pos d u1r u2r
    obtain ⟨hi0z, hp0z⟩ := zero_data i i0 p0 hz
    set D : TransformerData := ⟨d.u1, d.u2, i.sn, d.uk, d.pk, i.i0, i.p0, u1r, u2r⟩ with hD
    set D0 : TransformerData := ⟨d.u1, d.u2, i.sn, d.uk, d.pk, i0, p0, u1r, u2r⟩ with hD0
    refine ⟨seriesImpedance D, shuntAdmittance D0, shortCircuit_of D hs hu2 hsc, noLoad_of D0 hs hu2 hi0 hnl, ?_⟩
    intro z0 hz0 f t ho uf ut jf jt
    rw [(transformer3_iff f t (trafoParams i c pos u1r u2r) uf ut jf jt).2.2]
    have hq : (d.u1 / d.u2 : ℝ) ≠ 0 := div_ne_zero hu1 hu2.ne'
    have hqc : ((d.u1 / d.u2 : ℝ) : ℂ) ≠ 0 := by exact_mod_cast hq
    have hu1c : (u1r : ℂ) ≠ 0 := by exact_mod_cast h1r
    have hu2c : (u2r : ℂ) ≠ 0 := by exact_mod_cast h2r
    have hn0 : n ≠ 0 := by
      rw [hn]
      split
      · exact neg_ne_zero.mpr hqc
      · exact hqc
    set P := trafoParams i c pos u1r u2r with hP
    have hk : P.k = (d.u1 / d.u2) / (u1r / u2r) := by
      rw [hP]; unfold trafoParams; dsimp only; rw [hd]; rfl
    have hkc : (P.k : ℂ) = ((d.u1 / d.u2 : ℝ) : ℂ) / ((u1r / u2r : ℝ) : ℂ) := by rw [hk]; push_cast; rfl
    have hy : P.ySeries = 1 / seriesImpedance D / ((10 ^ 6 / u2r ^ 2 : ℝ) : ℂ) := by
      rw [hP]; unfold trafoParams; dsimp only; rw [hd, baseYTo_eq u2r h2r]
    have hy0 : P.y0Shunt = shuntAdmittance D0 / ((10 ^ 6 / u2r ^ 2 : ℝ) : ℂ) := by
      rw [hP]; unfold trafoParams; dsimp only; rw [hd, baseYTo_eq u2r h2r, hi0z, hp0z]
    have hgf : P.zgFrom = zf / ((u1r ^ 2 / 10 ^ 6 : ℝ) : ℂ) := grounding_data _ _ _ _ hzf
    have hgt : P.zgTo = zt / ((u2r ^ 2 / 10 ^ 6 : ℝ) : ℂ) := grounding_data _ _ _ _ hzt
    have hf : P.windingFrom = .wyeN := hwf
    have ht : P.windingTo = .wyeN := hwt
    have hcl : P.clock = c := rfl
    obtain ⟨c1, c2, c3⟩ := clock_stored i.clock c _ _ hc
    have hcm : c = i.clock % 12 := by
      have := c3
      unfold Int.ModEq at this
      omega
    have h1 : phaseFactor 0 = 1 := by unfold phaseFactor; simp
    have h6 : phaseFactor 6 = -1 := by
      unfold phaseFactor
      have : (Complex.I * (((6 : Int) : ℂ) * (Real.pi / 6))) = Real.pi * Complex.I := by push_cast; ring
      rw [this, Complex.exp_pi_mul_I]
    have hzz : 1 / (1 / P.ySeries + 3 * (P.zgTo + P.zgFrom / P.k / P.k)) = 1 / z0 / ((10 ^ 6 / u2r ^ 2 : ℝ) : ℂ) := by
      have e : 1 / P.ySeries + 3 * (P.zgTo + P.zgFrom / P.k / P.k) = z0 * ((10 ^ 6 / u2r ^ 2 : ℝ) : ℂ) := by
        rw [hy, hgt, hgf, hkc, hz0]
        generalize ((d.u1 / d.u2 : ℝ) : ℂ) = q at hqc
        rw [one_div, inv_div, div_div_eq_mul_div, mul_comm]
        push_cast
        field_simp
      rw [e, div_div]
    have hrr : (P.k : ℂ) * phaseFactor (if P.clock = 2 ∨ P.clock = 6 ∨ P.clock = 10 then 6 else 0) =
        n / ((u1r / u2r : ℝ) : ℂ) := by
      rw [hn, hkc, hcl, hcm]
      by_cases hcc : i.clock % 12 = 2 ∨ i.clock % 12 = 6 ∨ i.clock % 12 = 10
      · rw [if_pos hcc, if_pos (by simpa using hcc), h6]; ring
      · rw [if_neg hcc, if_neg (by simpa using hcc), h1]; ring
    have hparam : transformerZeroLow f t P = calcSym f t (1 / z0 / ((10 ^ 6 / u2r ^ 2 : ℝ) : ℂ))
        (shuntAdmittance D0 / ((10 ^ 6 / u2r ^ 2 : ℝ) : ℂ)) (n / ((u1r / u2r : ℝ) : ℂ)) := by
      unfold transformerZeroLow transformerZero
      simp only [hf, ht, zeroSeqAvailable, and_self, if_true, hzz, hrr, hy0]
      simp
    rw [hparam]
    exact branch_units f t u1r u2r h1r h2r _ _ n hn0 ho uf ut jf jt

/-! ### The hypotheses are met -/

theorem tapVoltage_exists (u size : ℝ) (pos nom tmin tmax : Int) : ∃ u', TapVoltage u size pos nom tmin tmax u' := by
  rcases lt_or_ge tmin tmax with h | h
  · exact ⟨_, fun _ => rfl, fun h' => absurd h' (by omega)⟩
  · exact ⟨_, fun h' => absurd h' (by omega), fun _ => rfl⟩

/-- Every transformer has data at every tap position. -/
theorem atTap_exists (i : TrafoInput) (pos : Int) : Nonempty (AtTap i pos) := by
  obtain ⟨nom, hn⟩ : ∃ nom, NominalTap i.tap nom := by
    by_cases h : i.tap.tapNom = -128
    · exact ⟨0, fun h' => absurd h h', fun _ => rfl⟩
    · exact ⟨_, fun _ => rfl, fun h' => absurd h' h⟩
  obtain ⟨u1, u2, hw⟩ : ∃ u1 u2, WindingVoltages i pos nom u1 u2 := by
    cases h : i.tapFrom with
    | true =>
      obtain ⟨u', hu⟩ := tapVoltage_exists i.u1 i.tapSize pos nom i.tap.tapMin i.tap.tapMax
      exact ⟨u', i.u2, fun _ => ⟨hu, rfl⟩, fun h' => by simp [h] at h'⟩
    | false =>
      obtain ⟨u', hu⟩ := tapVoltage_exists i.u2 i.tapSize pos nom i.tap.tapMin i.tap.tapMax
      exact ⟨i.u1, u', fun h' => by simp [h] at h', fun _ => ⟨rfl, hu⟩⟩
  exact ⟨⟨nom, u1, u2, _, _, _, _, _, _, hn, hw, given_getD _ _, given_getD _ _, given_getD _ _, given_getD _ _,
    tapAdjust_value _ _ _ _ _ _ _, tapAdjust_value _ _ _ _ _ _ _⟩⟩

/-- A 10.5 kV / 420 V transformer of 630 kVA, Dyn5, with 4 % short-circuit voltage at the nominal tap and 5 % at the highest one. -/
noncomputable def dyn5 : TrafoInput where
  u1 := 10500
  u2 := 420
  sn := 630000
  tapSize := 250
  uk := 4 / 100
  pk := 5000
  i0 := 2 / 1000
  p0 := 1000
  i0Zero := none
  p0Zero := none
  windingFrom := .delta
  windingTo := .wyeN
  clock := 5
  tapFrom := true
  tap := ⟨1, -2, 2, 0⟩
  ukMin := none
  ukMax := some (5 / 100)
  pkMin := none
  pkMax := none
  rgFrom := none
  xgFrom := none
  rgTo := some 1
  xgTo := none

/-- Its data at tap position 1: 10750 V and 4.5 %. -/
noncomputable def dyn5At : AtTap dyn5 1 where
  nom := 0
  u1 := 10750
  u2 := 420
  uk := 45 / 1000
  pk := 5000
  ukMin := 4 / 100
  ukMax := 5 / 100
  pkMin := 5000
  pkMax := 5000
  nominal := by unfold NominalTap dyn5; simp
  windings := by unfold WindingVoltages TapVoltage dyn5; norm_num
  ukMin_is := by unfold Given dyn5; simp
  ukMax_is := by unfold Given dyn5; simp
  pkMin_is := by unfold Given dyn5; simp
  pkMax_is := by unfold Given dyn5; simp
  uk_is := by unfold TapValue Between OnLine dyn5; norm_num
  pk_is := by unfold TapValue Between OnLine dyn5; norm_num

theorem dyn5_accepted : ∃ p, mkTrafo dyn5 1 10000 400 = .ok p := by
  cases h : mkTrafo dyn5 1 10000 400 with
  | ok p => exact ⟨p, rfl⟩
  | error e =>
    cases e with
    | invalidTransformerClock =>
      rw [transformer_refused] at h
      exact absurd (by unfold VectorGroupExists dyn5; decide) h
    | _ =>
      unfold mkTrafo at h
      split at h <;> cases h

-- The transformer fed at 10 kV with the to side open: all hypotheses of `transformer_physical` hold.
example : ∃ p z y, mkTrafo dyn5 1 10000 400 = .ok p ∧ ShortCircuitTest z 420 630000 (45 / 1000) 5000 ∧
    NoLoadTest y 420 630000 (2 / 1000) 1000 ∧ ∀ n : ℂ,
      n = ((10750 / 420 : ℝ) : ℂ) * Complex.exp (5 * (Real.pi / 6) * Complex.I) → ∀ uf ut jf jt : ℂ,
      (Flows (transformerSym true true p) uf ut jf jt ↔ SwitchedBranch true true (1 / z) y n (volts 10000 uf) (volts 400 ut)
        (amps 10000 jf) (amps 400 jt)) := by
  obtain ⟨p, hp⟩ := dyn5_accepted
  obtain ⟨z, y, h1, h2, h3⟩ := transformer_physical dyn5 1 10000 400 p hp (by norm_num [dyn5]) (by norm_num) (by norm_num) dyn5At
    (by norm_num [dyn5At]) (by norm_num [dyn5At]) (by norm_num [dyn5At, dyn5, abs_of_pos]) (by norm_num [dyn5])
    (by norm_num [dyn5, abs_of_pos])
  refine ⟨p, z, y, hp, h1, h2, fun n hn uf ut jf jt => ?_⟩
  have := h3 true true (fun h => absurd rfl h) n _ (by rw [hn]; norm_num [dyn5, dyn5At]) rfl uf ut jf jt
  exact this.1

-- Its zero sequence: the earthed star with one ohm at the to side, nothing but the low susceptance at the delta side.
example : ∃ p z y0, mkTrafo dyn5 1 10000 400 = .ok p ∧ ShortCircuitTest z 420 630000 (45 / 1000) 5000 ∧
    NoLoadTest y0 420 630000 (2 / 1000) 1000 ∧
    (1 + 3 * (y0 + 1 / z) ≠ 0 → ∀ (uf ut jf jt : ℂ),
      Flows3 (transformerAsym true true p) (uf • zeroSeq) (ut • zeroSeq) (jf • zeroSeq) (jt • zeroSeq) →
      EarthedWinding (y0 + 1 / z) 1 1 (volts 400 ut) (amps 400 jt)) := by
  obtain ⟨p, hp⟩ := dyn5_accepted
  obtain ⟨z, y, h1, h2, h3⟩ := transformer_zero_physical dyn5 1 10000 400 p hp (by norm_num [dyn5]) (by norm_num) (by norm_num) dyn5At
    (by norm_num [dyn5At]) (by norm_num [dyn5At]) (by norm_num [dyn5]) (by norm_num [dyn5At, dyn5, abs_of_pos]) (by norm_num [dyn5At])
    (2 / 1000) 1000 (by unfold ZeroSequenceNoLoad Given dyn5; simp) (by norm_num) (by norm_num [dyn5, abs_of_pos]) 0 1
    (by unfold Grounding Given dyn5; simp) (by unfold Grounding Given dyn5; simp) (by simp [dyn5])
  refine ⟨p, z, y, hp, h1, h2, fun hne uf ut jf jt hfl => ?_⟩
  obtain ⟨j, j', e1, e2, e3, e4⟩ := (h3 (by simp [dyn5, dyn5At, earthAdmittance]) (by simpa [dyn5, earthAdmittance] using hne)
    true true uf ut jf jt hfl).2 rfl
  rw [e4 (by unfold Blocked dyn5; simp), add_zero] at e1
  rw [e1]
  simpa [dyn5, earthAdmittance] using e2

end PGM.Physical
