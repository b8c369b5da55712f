import Verif.Physical.Lemmas
import Verif.Output.Model

/-!
# C59: branches and shunts behave as their physical data say

Lines, links and generic branches. `uf`, `ut`, `jf`, `jt` are the per unit values of the solver, `volts` and `amps` convert them to
physical units; that these are the units of the reported values is `reported_units`.
-/

namespace PGM.Physical

open PGM.Component

/-! ## What is reported -/

/-- C59: in symmetric calculations the reported voltage of a node is √3 times the modulus of the phase-to-neutral voltage, the reported
current of a branch the modulus of its current, and the reported power that of all three phases; in asymmetric calculations the
values of each phase. `r` is what the solver computes: powers are `u` times the conjugate of the current. -/
theorem reported_units {K : Type} (A : PGM.Output.Attr) (x n : PGM.Input.Comp K) (hx : n.elem.id = x.elem.n1)
    (hu : 0 < A.uRated x.elem.n1) :
    (∀ (u inj : PGM.PowerFlow.CV .sym) (r : PGM.Output.BranchSol .sym) (i : Fin 1), (∀ i, r.sF i = u i * star (r.iF i)) →
      (PGM.Output.nodeOutput A n u inj).u i = √3 * ‖volts (A.uRated x.elem.n1) (u i)‖ ∧
      (PGM.Output.branchOutput A x r).iFrom i = ‖amps (A.uRated x.elem.n1) (r.iF i)‖ ∧
      (⟨(PGM.Output.branchOutput A x r).pFrom i, (PGM.Output.branchOutput A x r).qFrom i⟩ : ℂ) =
        3 * (volts (A.uRated x.elem.n1) (u i) * star (amps (A.uRated x.elem.n1) (r.iF i)))) ∧
    (∀ (u inj : PGM.PowerFlow.CV .asym) (r : PGM.Output.BranchSol .asym) (i : Fin 3), (∀ i, r.sF i = u i * star (r.iF i)) →
      (PGM.Output.nodeOutput A n u inj).u i = ‖volts (A.uRated x.elem.n1) (u i)‖ ∧
      (PGM.Output.branchOutput A x r).iFrom i = ‖amps (A.uRated x.elem.n1) (r.iF i)‖ ∧
      (⟨(PGM.Output.branchOutput A x r).pFrom i, (PGM.Output.branchOutput A x r).qFrom i⟩ : ℂ) =
        volts (A.uRated x.elem.n1) (u i) * star (amps (A.uRated x.elem.n1) (r.iF i))) := by
  have h3 : (0 : ℝ) < √3 := by positivity
  have hs := sqrt3_sq
  have hsc : ((√3 : ℝ) : ℂ) * ((√3 : ℝ) : ℂ) = 3 := by exact_mod_cast hs
  have h3c : ((√3 : ℝ) : ℂ) ≠ 0 := by exact_mod_cast h3.ne'
  have huc : ((A.uRated x.elem.n1 : ℝ) : ℂ) ≠ 0 := by exact_mod_cast hu.ne'
  have hpow : ∀ (v j : ℂ), volts (A.uRated x.elem.n1) v * star (amps (A.uRated x.elem.n1) j) = (1000000 / 3 : ℝ) * (v * star j) := by
    intro v j
    unfold volts amps
    rw [star_mul', show star (((10 ^ 6 / (√3 * A.uRated x.elem.n1) : ℝ)) : ℂ) = ((10 ^ 6 / (√3 * A.uRated x.elem.n1) : ℝ) : ℂ)
      from Complex.conj_ofReal _]
    have : (((A.uRated x.elem.n1 / √3 : ℝ)) : ℂ) * ((10 ^ 6 / (√3 * A.uRated x.elem.n1) : ℝ) : ℂ) = ((1000000 / 3 : ℝ) : ℂ) := by
      rw [← Complex.ofReal_mul]
      congr 1
      field_simp
      rw [sq, hs]; norm_num
    linear_combination (v * star j) * this
  have hamp : ∀ j : ℂ, PGM.Output.baseCurrent (A.uRated x.elem.n1) * ‖j‖ = ‖amps (A.uRated x.elem.n1) j‖ := by
    intro j
    unfold amps PGM.Output.baseCurrent
    rw [norm_mul, Complex.norm_real, Real.norm_of_nonneg (by positivity)]
    congr 1
    field_simp
    norm_num
  refine ⟨fun u inj r i hr => ⟨?_, ?_, ?_⟩, fun u inj r i hr => ⟨?_, ?_, ?_⟩⟩
  · unfold volts PGM.Output.nodeOutput PGM.Output.uScale
    simp only [hx]
    rw [norm_mul, Complex.norm_real, Real.norm_of_nonneg (by positivity)]
    field_simp
  · exact hamp _
  · rw [hpow, ← hr i]
    unfold PGM.Output.branchOutput PGM.Output.basePower
    apply Complex.ext
    · simp; ring
    · simp; ring
  · unfold volts PGM.Output.nodeOutput PGM.Output.uScale
    simp only [hx]
    rw [norm_mul, Complex.norm_real, Real.norm_of_nonneg (by positivity)]
    field_simp
  · exact hamp _
  · rw [hpow, ← hr i]
    unfold PGM.Output.branchOutput PGM.Output.basePower
    apply Complex.ext
    · simp
    · simp

/-! ## Lines -/

/-- C59: a line between nodes with different rated voltages is refused, one between nodes with the same is accepted. -/
theorem line_voltages (i : LineInput) (freq u1 u2 : ℝ) :
    (u1 = u2 → ∃ l, mkLine i freq u1 u2 = .ok l) ∧
    (10 ^ (-8 : ℤ) < |u1 - u2| → mkLine i freq u1 u2 = .error .conflictVoltage) := by
  unfold mkLine tolerance
  constructor
  · rintro rfl
    rw [if_neg (by rw [sub_self, abs_zero]; norm_num)]
    exact ⟨_, rfl⟩
  · intro h
    rw [if_pos (by rw [gt_iff_lt, show (1 / 100000000 : ℝ) = 10 ^ (-8 : ℤ) by norm_num]; exact h)]

/-- C59: a line is a Π circuit with the series impedance `r1 + j x1` ohm and the shunt admittance `2 π f c1 (tan1 + j)` siemens, in
three phases for the part that is not common to the phases, with `r0`, `x0`, `c0`, `tan0` for the common part; for all switch
positions, and all voltages and currents. -/
theorem line_physical (i : LineInput) (freq u : ℝ) (hu : u ≠ 0) (l : Line) (hl : mkLine i freq u u = .ok l) (f t : Bool)
    (ys1 ysh1 ys0 ysh0 : ℂ) (h1 : ys1 = 1 / ⟨i.r1, i.x1⟩) (h2 : ysh1 = (2 * Real.pi * freq * i.c1 : ℝ) * ⟨i.tan1, 1⟩)
    (h3 : ys0 = 1 / ⟨i.r0, i.x0⟩) (h4 : ysh0 = (2 * Real.pi * freq * i.c0 : ℝ) * ⟨i.tan0, 1⟩)
    (ho : OpenEnd f t u ys1 ysh1) :
    (∀ uf ut jf jt : ℂ, Flows (l.sym f t) uf ut jf jt ↔
      SwitchedBranch f t ys1 ysh1 1 (volts u uf) (volts u ut) (amps u jf) (amps u jt)) ∧
    (OpenEnd f t u ys0 ysh0 → ∀ uf ut jf jt : C3, Flows3 (l.asym f t) uf ut jf jt ↔
      Transposed f t ys1 ysh1 ys0 ysh0 (volts3 u uf) (volts3 u ut) (amps3 u jf) (amps3 u jt)) := by
  unfold mkLine at hl
  split at hl
  · cases hl
  · cases hl
    have hone : (1 : ℂ) = 1 / ((u / u : ℝ) : ℂ) := by rw [div_self hu]; simp
    have hser : ∀ (r x : ℝ), seriesPu r x (baseY u) = (1 / ⟨r, x⟩) / ((10 ^ 6 / u ^ 2 : ℝ) : ℂ) := by
      intro r x
      unfold seriesPu
      rw [baseY_eq u hu, Complex.mk_eq_add_mul_I, mul_comm Complex.I]
    have hsh : ∀ (c tan : ℝ), lineShuntPu freq c tan (baseY u) =
        ((2 * Real.pi * freq * c : ℝ) * (⟨tan, 1⟩ : ℂ)) / ((10 ^ 6 / u ^ 2 : ℝ) : ℂ) := by
      intro c tan
      unfold lineShuntPu
      rw [baseY_eq u hu, Complex.mk_eq_add_mul_I, Complex.ofReal_div]
      push_cast
      ring
    constructor
    · intro uf ut jf jt
      unfold Line.sym
      rw [hser, hsh, ← h1, ← h2]
      have := branch_units f t u u hu hu ys1 ysh1 1 one_ne_zero ho uf ut jf jt
      rwa [← hone] at this
    · intro ho0 uf ut jf jt
      unfold Line.asym Transposed
      rw [hser, hsh, hser, hsh, ← h1, ← h2, ← h3, ← h4]
      have := branch3_units f t u u hu hu ys1 ysh1 ys0 ysh0 1 one_ne_zero ho ho0 uf ut jf jt
      rwa [← hone] at this

/-- Non-vacuity: a line of 1 + 2j ohm and 1 µF in a grid of 10 kV and 50 Hz that is open at the to side. -/
example : ∃ l, mkLine ⟨1, 2, 10 ^ (-6 : ℤ), 0, 3, 6, 10 ^ (-6 : ℤ), 0⟩ 50 10000 10000 = .ok l ∧
    OpenEnd true false 10000 (1 / ⟨1, 2⟩) ((2 * Real.pi * 50 * 10 ^ (-6 : ℤ) : ℝ) * ⟨0, 1⟩) := by
  obtain ⟨l, hl⟩ := (line_voltages ⟨1, 2, 10 ^ (-6 : ℤ), 0, 3, 6, 10 ^ (-6 : ℤ), 0⟩ 50 10000 10000).1 rfl
  have hp := Real.two_le_pi
  refine ⟨l, hl, fun _ => ⟨?_, ?_, Or.inr ?_⟩⟩
  · rw [one_div]
    exact inv_ne_zero (fun h => by simpa using congrArg Complex.re h)
  · intro h
    have h' := congrArg Complex.re h
    rw [mul_div_assoc, Complex.add_re, Complex.re_ofReal_mul] at h'
    simp [Complex.inv_re, Complex.normSq_mk] at h'
    norm_num at h'
  · rw [norm_mul, Complex.norm_real, Real.norm_of_nonneg (by positivity),
      show ‖(⟨0, 1⟩ : ℂ)‖ = 1 from Complex.norm_I, mul_one]
    norm_num
    nlinarith

/-! ## Links -/

/-- C59: a link is a series admittance of `(1 + j) 10^8` per unit without shunt; per unit of 1 MVA and the rated voltages, so that
currents in the two ends are in the inverse ratio of the rated voltages. -/
theorem link_physical (f t : Bool) (uf ut jf jt : ℂ) :
    Flows (linkSym f t) uf ut jf jt ↔ SwitchedBranch f t (10 ^ 8 * ⟨1, 1⟩) 0 1 uf ut jf jt := by
  have hy : yLink = 10 ^ 8 * ⟨1, 1⟩ := by
    unfold yLink gLink basePower3p
    apply Complex.ext <;> norm_num
  unfold linkSym
  rw [hy]
  refine branch_exact' f t _ _ _ _ _ _ _ one_ne_zero (fun _ => ?_)
  have : (10 ^ 8 * ⟨1, 1⟩ : ℂ) ≠ 0 := fun h => by
    have := congrArg Complex.re h
    norm_num at this
  exact ⟨this, by simpa using this, Or.inr rfl⟩

/-- C59, three phases: the same in every phase. -/
theorem link_physical3 (f t : Bool) (uf ut jf jt : C3) :
    Flows3 (linkAsym f t) uf ut jf jt ↔
      SwitchedBranch f t (10 ^ 8 * ⟨1, 1⟩) 0 1 (common uf) (common ut) (common jf) (common jt) ∧
      ∀ p, SwitchedBranch f t (10 ^ 8 * ⟨1, 1⟩) 0 1 (uf p - common uf) (ut p - common ut) (jf p - common jf)
        (jt p - common jt) := by
  unfold linkAsym
  rw [flows3_iff]
  constructor
  · rintro ⟨h1, h2⟩
    exact ⟨(link_physical f t _ _ _ _).mp h1, fun p => (link_physical f t _ _ _ _).mp (h2 p)⟩
  · rintro ⟨h1, h2⟩
    exact ⟨(link_physical f t _ _ _ _).mpr h1, fun p => (link_physical f t _ _ _ _).mpr (h2 p)⟩

/-- C59 fails for links as the user manual describes them: `(1 + j) 10^6` per unit is a hundredth of the admittance of the code, and
`10e6` siemens at 10 kV (a hundredth siemens is one per unit there) ten times of it. -/
theorem link_not_as_documented :
    ¬ (∀ uf ut jf jt : ℂ, Flows (linkSym true true) uf ut jf jt ↔
      SwitchedBranch true true (10 ^ 6 * ⟨1, 1⟩) 0 1 uf ut jf jt) ∧
    ¬ (∀ uf ut jf jt : ℂ, Flows (linkSym true true) uf ut jf jt ↔
      SwitchedBranch true true (10 * 10 ^ 6 * ⟨1, 1⟩) 0 1 (volts 10000 uf) (volts 10000 ut) (amps 10000 jf) (amps 10000 jt)) := by
  have key : ∀ ys : ℂ, SwitchedBranch true true ys 0 1 1 0 (10 ^ 8 * ⟨1, 1⟩) (-(10 ^ 8 * ⟨1, 1⟩)) → ys = 10 ^ 8 * ⟨1, 1⟩ := by
    rintro ys ⟨ef, et, h1, h2, -, -, h3⟩
    rw [h1 rfl, h2 rfl, piCircuit_iff _ _ _ _ _ _ _ one_ne_zero] at h3
    have := h3.1
    simp at this
    exact this.symm
  have hflow : Flows (linkSym true true) 1 0 (10 ^ 8 * ⟨1, 1⟩) (-(10 ^ 8 * ⟨1, 1⟩)) := by
    rw [link_physical]
    refine ⟨1, 0, by simp, by simp, by simp, by simp, ?_⟩
    rw [piCircuit_iff _ _ _ _ _ _ _ one_ne_zero]
    simp
  constructor
  · intro h
    have := congrArg Complex.re (key _ ((h _ _ _ _).mp hflow))
    norm_num at this
  · intro h
    have h' := (h _ _ _ _).mp hflow
    obtain ⟨b1, b2, b3, b4, b5, b6, b7⟩ := bases 10000 10000 (by norm_num) (by norm_num)
    have hs := switched_scale true true (10 * 10 ^ 6 * ⟨1, 1⟩ / ((10 ^ 6 / 10000 ^ 2 : ℝ) : ℂ)) 0 1 1 0 (10 ^ 8 * ⟨1, 1⟩)
      (-(10 ^ 8 * ⟨1, 1⟩)) _ _ _ _ b1 b2 b3 b4 b5 one_ne_zero
    rw [b6, b7] at hs
    have hb : ((10 ^ 6 / 10000 ^ 2 : ℝ) : ℂ) ≠ 0 := by norm_num
    rw [div_mul_cancel₀ _ hb, zero_mul, show ((10000 / 10000 : ℝ) : ℂ) = 1 by norm_num, mul_one] at hs
    have hk := key _ (hs.mpr h')
    rw [div_eq_iff hb] at hk
    have := congrArg Complex.re hk
    rw [mul_comm (10 ^ 8 * _) _, Complex.re_ofReal_mul] at this
    norm_num at this

/-! ## Generic branches -/

/-- C59: a generic branch is an ideal transformer of ratio `k e^{jθ} u1 / u2` at its from side and a Π circuit of `r1 + j x1` ohm and
`g1 + j b1` siemens at its to side; `k` is 1 and `θ` is 0 if not given. Asymmetric calculations with it are refused. -/
theorem generic_physical (i : GenericInput) (u1 u2 : ℝ) (hu1 : u1 ≠ 0) (hu2 : u2 ≠ 0) (k θ : ℝ) (hk : i.k = some k ∨ (i.k = none ∧ k = 1))
    (hθ : i.theta = some θ ∨ (i.theta = none ∧ θ = 0)) (hk0 : k ≠ 0) (f t : Bool)
    (ho : OpenEnd f t u2 (1 / ⟨i.r1, i.x1⟩) ⟨i.g1, i.b1⟩) :
    (∀ uf ut jf jt : ℂ, Flows ((mkGeneric i u1 u2).sym f t) uf ut jf jt ↔
      SwitchedBranch f t (1 / ⟨i.r1, i.x1⟩) ⟨i.g1, i.b1⟩ (k * Complex.exp (θ * Complex.I) * ((u1 / u2 : ℝ) : ℂ))
        (volts u1 uf) (volts u2 ut) (amps u1 jf) (amps u2 jt)) ∧
    (mkGeneric i u1 u2).asym f t = .error .notImplemented := by
  refine ⟨fun uf ut jf jt => ?_, rfl⟩
  have hq : (u1 / u2 : ℝ) ≠ 0 := div_ne_zero hu1 hu2
  have hqc : ((u1 / u2 : ℝ) : ℂ) ≠ 0 := by exact_mod_cast hq
  have hkc : (k : ℂ) ≠ 0 := by exact_mod_cast hk0
  have hn : (k : ℂ) * Complex.exp (θ * Complex.I) * ((u1 / u2 : ℝ) : ℂ) ≠ 0 :=
    mul_ne_zero (mul_ne_zero hkc (Complex.exp_ne_zero _)) hqc
  rw [← branch_units f t u1 u2 hu1 hu2 _ _ _ hn ho, mul_div_assoc, div_self hqc, mul_one]
  have e1 : (mkGeneric i u1 u2).y1Series = 1 / ⟨i.r1, i.x1⟩ / ((10 ^ 6 / u2 ^ 2 : ℝ) : ℂ) := by
    unfold mkGeneric seriesPu
    rw [baseY_eq u2 hu2, Complex.mk_eq_add_mul_I, mul_comm Complex.I]
  have e2 : (mkGeneric i u1 u2).y1Shunt = (⟨i.g1, i.b1⟩ : ℂ) / ((10 ^ 6 / u2 ^ 2 : ℝ) : ℂ) := by
    unfold mkGeneric
    rw [baseY_eq u2 hu2, Complex.mk_eq_add_mul_I, mul_comm Complex.I]
  have e3 : (mkGeneric i u1 u2).k = k := by
    unfold mkGeneric
    rcases hk with h | ⟨h, rfl⟩ <;> rw [h] <;> rfl
  have e4 : Complex.exp (Complex.I * (mkGeneric i u1 u2).theta) = Complex.exp (θ * Complex.I) := by
    unfold mkGeneric
    rcases hθ with h | ⟨h, rfl⟩ <;> rw [h]
    · dsimp only
      rw [fmod_angle, mul_comm]
    · simp
  unfold Generic.sym
  rw [e1, e2, e3, e4]

/-- Non-vacuity: a branch between 110 kV and 10 kV with a phase shift of 400 degrees, closed at both sides. -/
example : OpenEnd true true 10000 (1 / ⟨1, 2⟩) ⟨0, 0⟩ ∧ (110000 : ℝ) ≠ 0 := ⟨fun h => absurd rfl h, by norm_num⟩

/-! ## Shunts -/

theorem updateParam_fst (v t : Option ℝ) : (updateParam v t).1 = v.or t := by
  unfold updateParam
  cases v with
  | none => rfl
  | some x =>
    dsimp only
    split
    · rename_i h; rw [h]; rfl
    · rfl

theorem updateParam_snd (v t : Option ℝ) (h : (updateParam v t).2 = false) : (updateParam v t).1 = t := by
  unfold updateParam at h ⊢
  cases v with
  | none => rfl
  | some x =>
    dsimp only at h ⊢
    split
    · rfl
    · rename_i h'; rw [if_neg h'] at h; cases h

/-- The stored admittances are those of the stored data. -/
theorem shunt_step (base : ℝ) (s : Shunt) (v : ShuntValues)
    (h : s.y1 = shuntPu base s.data.g1 s.data.b1 ∧ s.y0 = shuntPu base s.data.g0 s.data.b0) :
    (s.update base v).y1 = shuntPu base (s.update base v).data.g1 (s.update base v).data.b1 ∧
    (s.update base v).y0 = shuntPu base (s.update base v).data.g0 (s.update base v).data.b0 ∧
    (s.update base v).data = ⟨v.g1.or s.data.g1, v.b1.or s.data.b1, v.g0.or s.data.g0, v.b0.or s.data.b0⟩ := by
  unfold Shunt.update
  simp only [updateParam_fst]
  split
  · exact ⟨rfl, rfl, rfl⟩
  · rename_i hc
    simp only [Bool.or_eq_true, not_or, Bool.not_eq_true] at hc
    obtain ⟨⟨⟨c1, c2⟩, c3⟩, c4⟩ := hc
    have e1 := updateParam_snd _ _ c1
    have e2 := updateParam_snd _ _ c2
    have e3 := updateParam_snd _ _ c3
    have e4 := updateParam_snd _ _ c4
    rw [updateParam_fst] at e1 e2 e3 e4
    refine ⟨?_, ?_, rfl⟩
    · rw [h.1, e1, e2]
    · rw [h.2, e3, e4]

theorem latest_cons (v init : Option ℝ) (l : List (Option ℝ)) : latest (v.or init) l = latest init (v :: l) := by
  unfold latest
  cases v with
  | none => rfl
  | some x =>
    rw [show List.filterMap id (some x :: l) = x :: List.filterMap id l from rfl]
    cases h : List.filterMap id l with
    | nil => rfl
    | cons a b =>
      rw [List.getLast?_cons_cons]
      cases h2 : (a :: b).getLast? with
      | none => simp at h2
      | some y => rfl

theorem shunt_history (base : ℝ) (l : List ShuntValues) (s : Shunt)
    (h : s.y1 = shuntPu base s.data.g1 s.data.b1 ∧ s.y0 = shuntPu base s.data.g0 s.data.b0) :
    let e := l.foldl (Shunt.update base) s
    e.y1 = shuntPu base (latest s.data.g1 (l.map (·.g1))) (latest s.data.b1 (l.map (·.b1))) ∧
    e.y0 = shuntPu base (latest s.data.g0 (l.map (·.g0))) (latest s.data.b0 (l.map (·.b0))) := by
  induction l generalizing s with
  | nil => simpa [latest] using h
  | cons v l ih =>
    obtain ⟨h1, h2, h3⟩ := shunt_step base s v h
    have := ih (s.update base v) ⟨h1, h2⟩
    rw [h3] at this
    simp only [latest_cons] at this
    exact this

/-- C59: a shunt that is switched on draws the current `(g1 + j b1) v`, in three phases with `g0`, `b0` for the common part of the
voltages; after any history of updates, the values are the last that were given. A shunt that is off draws none. -/
theorem shunt_physical (u : ℝ) (hu : u ≠ 0) (init : ShuntValues) (updates : List ShuntValues) (g1 b1 g0 b0 : ℝ)
    (h1 : latest init.g1 (updates.map (·.g1)) = some g1) (h2 : latest init.b1 (updates.map (·.b1)) = some b1)
    (h3 : latest init.g0 (updates.map (·.g0)) = some g0) (h4 : latest init.b0 (updates.map (·.b0)) = some b0) :
    let s := updates.foldl (Shunt.update (baseY u)) (mkShunt (baseY u) init)
    (∃ y, s.sym true = some y ∧ ∀ v, amps u (y * v) = ⟨g1, b1⟩ * volts u v) ∧
    (∃ y, s.asym true = some y ∧ ∀ v p, amps u (y.mulVec v p) =
      ⟨g1, b1⟩ * (volts3 u v p - common (volts3 u v)) + ⟨g0, b0⟩ * common (volts3 u v)) ∧
    s.sym false = some 0 ∧ s.asym false = some 0 := by
  intro s
  have hb : ((10 ^ 6 / u ^ 2 : ℝ) : ℂ) ≠ 0 := by
    have : (10 ^ 6 / u ^ 2 : ℝ) ≠ 0 := by positivity
    exact_mod_cast this
  have h0 := shunt_step (baseY u) ⟨⟨none, none, none, none⟩, none, none⟩ init ⟨rfl, rfl⟩
  have hh := shunt_history (baseY u) updates (mkShunt (baseY u) init) ⟨h0.1, h0.2.1⟩
  have hd : (mkShunt (baseY u) init).data = init := by
    unfold mkShunt
    rw [h0.2.2]
    simp
  rw [hd] at hh
  simp only [h1, h2, h3, h4] at hh
  have e1 : s.y1 = some ((⟨g1, b1⟩ : ℂ) / ((10 ^ 6 / u ^ 2 : ℝ) : ℂ)) := by
    rw [hh.1]
    unfold shuntPu
    dsimp only
    rw [baseY_eq u hu, Complex.mk_eq_add_mul_I, mul_comm Complex.I]
  have e0 : s.y0 = some ((⟨g0, b0⟩ : ℂ) / ((10 ^ 6 / u ^ 2 : ℝ) : ℂ)) := by
    rw [hh.2]
    unfold shuntPu
    dsimp only
    rw [baseY_eq u hu, Complex.mk_eq_add_mul_I, mul_comm Complex.I]
  obtain ⟨b1', b2', b3', b4', b5', b6', b7'⟩ := bases u u hu hu
  have hbase : ∀ y v : ℂ, amps u (y / ((10 ^ 6 / u ^ 2 : ℝ) : ℂ) * v) = y * volts u v := by
    intro y v
    unfold amps volts
    have hx : ((u / √3 : ℝ) : ℂ) ≠ 0 := by exact_mod_cast b1'
    have : ((10 ^ 6 / (√3 * u) : ℝ) : ℂ) = ((10 ^ 6 / u ^ 2 : ℝ) : ℂ) * ((u / √3 : ℝ) : ℂ) := by
      rw [← Complex.ofReal_mul, ← b6', div_mul_cancel₀ _ b1']
    rw [this]
    field_simp
  refine ⟨⟨_, by unfold Shunt.sym; exact e1, fun v => hbase _ v⟩,
    ⟨abcBlock ((⟨g1, b1⟩ : ℂ) / ((10 ^ 6 / u ^ 2 : ℝ) : ℂ)) ((⟨g0, b0⟩ : ℂ) / ((10 ^ 6 / u ^ 2 : ℝ) : ℂ)), ?_, ?_⟩, rfl, rfl⟩
  · unfold Shunt.asym
    rw [e1, e0]
    rfl
  · intro v p
    rw [abcBlock_mulVec, common_volts]
    have hadd : ∀ a b : ℂ, amps u (a + b) = amps u a + amps u b := fun a b => by unfold amps; ring
    rw [hadd, hbase, hbase, volts_sub]
    rfl

/-- Non-vacuity: a shunt whose conductance is updated twice. -/
example : latest (some (1 : ℝ)) [some 2, none, some 3, none] = some 3 := rfl

end PGM.Physical
