import Verif.Component.ThreeWinding

/-!
# Physical data of branches and shunts (property C59)

The constructors of the branch components and of shunts turn ohm, siemens, farad, volt and volt-ampere into per unit values.
Prefix of all paths: `P/` = `/repo/power_grid_model_c/power_grid_model/include/power_grid_model/`. All numbers are exact; a NaN
is `none` in attributes for which the code asks `is_nan`. Division by zero, which gives infinities in the code, is excluded by
the hypotheses of the theorems.
-/

namespace PGM.Physical

open PGM.Component

/-- `base_power_3p`, `P/common/common.hpp` line 93. -/
def basePower3p : ℝ := 1000000

/-- `base_power_1p`, `P/common/common.hpp` line 94. -/
noncomputable def basePower1p : ℝ := basePower3p / 3

/-- `base_i`: `base_power_3p / u / sqrt3`, `P/component/line.hpp` line 27 and the other constructors. -/
noncomputable def baseI (u : ℝ) : ℝ := basePower3p / u / √3

/-- `base_y`: `base_i / (u / sqrt3)`, `P/component/line.hpp` line 31, generic_branch.hpp line 49, shunt.hpp line 32. -/
noncomputable def baseY (u : ℝ) : ℝ := baseI u / (u / √3)

/-- Exceptions of the constructors. -/
inductive Refused where
  | conflictVoltage
  | invalidTransformerClock
  | notImplemented
deriving DecidableEq

/-! ## Lines -/

/-- The electrical part of `LineInput`. -/
structure LineInput where
  r1 : ℝ
  x1 : ℝ
  c1 : ℝ
  tan1 : ℝ
  r0 : ℝ
  x0 : ℝ
  c0 : ℝ
  tan0 : ℝ

/-- The admittances that a `Line` stores. -/
structure Line where
  y1Series : ℂ
  y1Shunt : ℂ
  y0Series : ℂ
  y0Shunt : ℂ

/-- `1.0 / (r + 1.0i * x) / base_y`, `P/component/line.hpp` lines 32 and 34, generic_branch.hpp line 50. -/
noncomputable def seriesPu (r x base : ℝ) : ℂ := 1 / ((r : ℂ) + Complex.I * x) / base

/-- `2.0 * pi * system_frequency * c / base_y * (tan + 1.0i)`, `P/component/line.hpp` lines 33 and 35. -/
noncomputable def lineShuntPu (freq c tan base : ℝ) : ℂ :=
  ((2 * Real.pi * freq * c / base : ℝ) : ℂ) * ((tan : ℂ) + Complex.I)

open Classical in
/-- The constructor of `Line`, `P/component/line.hpp` lines 26-36; `u1` and `u2` are the rated voltages of the nodes. -/
noncomputable def mkLine (i : LineInput) (freq u1 u2 : ℝ) : Except Refused Line :=
  if |u1 - u2| > tolerance then .error .conflictVoltage
  else .ok ⟨seriesPu i.r1 i.x1 (baseY u1), lineShuntPu freq i.c1 i.tan1 (baseY u1),
    seriesPu i.r0 i.x0 (baseY u1), lineShuntPu freq i.c0 i.tan0 (baseY u1)⟩

/-- `Line::sym_calc_param`, `P/component/line.hpp` lines 53-55. -/
noncomputable def Line.sym (l : Line) (f t : Bool) : BranchParam ℂ := calcSym f t l.y1Series l.y1Shunt 1

/-- `Line::asym_calc_param`, `P/component/line.hpp` lines 56-58. -/
noncomputable def Line.asym (l : Line) (f t : Bool) : BranchParam M3 :=
  calcAsym f t l.y1Series l.y1Shunt l.y0Series l.y0Shunt 1

/-! ## Links -/

/-- `g_link`, `P/common/common.hpp` line 100. -/
noncomputable def gLink : ℝ := 1000000 / (basePower3p / 10000 / 10000)

/-- `y_link`, `P/common/common.hpp` line 101. -/
noncomputable def yLink : ℂ := ⟨gLink, gLink⟩

/-- `Link::sym_calc_param`, `P/component/link.hpp` line 35. -/
noncomputable def linkSym (f t : Bool) : BranchParam ℂ := calcSym f t yLink 0 1

/-- `Link::asym_calc_param`, `P/component/link.hpp` lines 36-38. -/
noncomputable def linkAsym (f t : Bool) : BranchParam M3 := calcAsym f t yLink 0 yLink 0 1

/-! ## Generic branches -/

/-- The electrical part of `GenericBranchInput`. -/
structure GenericInput where
  r1 : ℝ
  x1 : ℝ
  g1 : ℝ
  b1 : ℝ
  k : Option ℝ
  theta : Option ℝ

/-- What a `GenericBranch` stores. -/
structure Generic where
  y1Series : ℂ
  y1Shunt : ℂ
  k : ℝ
  theta : ℝ

/-- `std::fmod`: the remainder of the division rounded to zero. -/
noncomputable def fmod (x y : ℝ) : ℝ := x - y * (if 0 ≤ x / y then (⌊x / y⌋ : ℝ) else (⌈x / y⌉ : ℝ))

/-- The constructor of `GenericBranch`, `P/component/generic_branch.hpp` lines 39-53. -/
noncomputable def mkGeneric (i : GenericInput) (_u1 u2 : ℝ) : Generic where
  y1Series := seriesPu i.r1 i.x1 (baseY u2)
  y1Shunt := ((i.g1 : ℂ) + Complex.I * i.b1) / baseY u2
  k := i.k.getD 1
  theta := match i.theta with | none => 0 | some x => fmod x (2 * Real.pi)

/-- `GenericBranch::sym_calc_param`, `P/component/generic_branch.hpp` lines 77-79. -/
noncomputable def Generic.sym (g : Generic) (f t : Bool) : BranchParam ℂ :=
  calcSym f t g.y1Series g.y1Shunt (g.k * Complex.exp (Complex.I * g.theta))

/-- `GenericBranch::asym_calc_param`, `P/component/generic_branch.hpp` line 81. -/
def Generic.asym (_g : Generic) (_f _t : Bool) : Except Refused (BranchParam M3) := .error .notImplemented

/-! ## Asymmetric lines -/

/-- The entries of a symmetric 3×3 matrix in the order of the constructor `Tensor(s1, s2, s3, m12, m13, m23)`. -/
structure Sym3 (T : Type) where
  aa : T
  bb : T
  cc : T
  ba : T
  ca : T
  cb : T

/-- The entries of the row of the neutral conductor. -/
structure Neutral (T : Type) where
  nn : T
  na : T
  nb : T
  nc : T

/-- The electrical part of `AsymLineInput`. The neutral values are given together or not at all: the code tests only `r_na` and
`x_na`; with `r_na` or `x_na` but not all of the others the impedances of the code are NaN. The capacities are either `c0` and
`c1` or the matrix; given both, the code takes `c0` and `c1`. -/
structure AsymLineInput where
  r : Sym3 ℝ
  x : Sym3 ℝ
  neutral : Option (Neutral ℝ × Neutral ℝ)
  c : Sym3 ℝ
  c0 : Option ℝ
  c1 : Option ℝ

/-- The constructor `Tensor(s1, s2, s3, m12, m13, m23)`, `P/common/three_phase_tensor.hpp` lines 72-74. -/
def Sym3.matrix {T : Type} (s : Sym3 T) : Matrix (Fin 3) (Fin 3) T :=
  !![s.aa, s.ba, s.ca; s.ba, s.bb, s.cb; s.ca, s.cb, s.cc]

/-- `r_matrix + 1.0i * x_matrix`, `P/component/asym_line.hpp` line 66. -/
noncomputable def impedances (r x : Sym3 ℝ) : M3 :=
  fun i j => (r.matrix i j : ℂ) + Complex.I * (x.matrix i j : ℂ)

/-- The constructor `Tensor4(s1, s2, s3, s4, m12, m13, m14, m23, m24, m34)`, `P/common/three_phase_tensor.hpp` lines 95-98, with the
arguments of `P/component/asym_line.hpp` lines 68-75. -/
def matrix4 {T : Type} (s : Sym3 T) (n : Neutral T) : Matrix (Fin 4) (Fin 4) T :=
  !![s.aa, s.ba, s.ca, n.na; s.ba, s.bb, s.cb, n.nb; s.ca, s.cb, s.cc, n.nc; n.na, n.nb, n.nc, n.nn]

/-- `r_matrix + 1.0i * x_matrix`, `P/component/asym_line.hpp` line 76. -/
noncomputable def impedances4 (r x : Sym3 ℝ) (rn xn : Neutral ℝ) : Matrix (Fin 4) (Fin 4) ℂ :=
  fun i j => ((matrix4 r rn i j : ℝ) : ℂ) + Complex.I * ((matrix4 x xn i j : ℝ) : ℂ)

/-- `kron_reduction`, `P/component/line_utils.hpp` lines 12-19, with `vector_outer_product`, `P/common/three_phase_tensor.hpp` lines
245-247. -/
noncomputable def kron (y : Matrix (Fin 4) (Fin 4) ℂ) : M3 :=
  let yaa : Sym3 ℂ := ⟨y 0 0, y 1 1, y 2 2, y 1 0, y 2 0, y 2 1⟩
  let yab : C3 := ![y 0 3, y 1 3, y 2 3]
  let yba : C3 := ![y 3 0, y 3 1, y 3 2]
  let inv := 1 / y 3 3
  fun i j => yaa.matrix i j - yba i * yab j * inv

/-- `compute_z_series_from_input`, `P/component/asym_line.hpp` lines 56-80. -/
noncomputable def zSeries (i : AsymLineInput) : M3 :=
  match i.neutral with
  | none => impedances i.r i.x
  | some (rn, xn) => kron (impedances4 i.r i.x rn xn)

/-- `compute_c_matrix_from_input`, `P/component/asym_line.hpp` lines 82-93. -/
noncomputable def cMatrix (i : AsymLineInput) : M3 :=
  match i.c0, i.c1 with
  | some c0, some c1 => balancedMatrix ((2 * c1 + c0) / 3) ((c0 - c1) / 3)
  | _, _ => fun p q => (i.c.matrix p q : ℂ)

/-- The admittances that an `AsymLine` stores. -/
structure AsymLine where
  ySeries : M3
  yShunt : M3

open Classical in
/-- The constructor of `AsymLine`, `P/component/asym_line.hpp` lines 28-41. -/
noncomputable def mkAsymLine (i : AsymLineInput) (freq u1 u2 : ℝ) : Except Refused AsymLine :=
  if |u1 - u2| > tolerance then .error .conflictVoltage
  else .ok ⟨(1 / (baseY u1 : ℂ)) • (zSeries i)⁻¹,
    (1 / (baseY u1 : ℂ)) • ((2 * Complex.I * Real.pi * freq : ℂ) • cMatrix i)⟩

/-- `average_of_diagonal_of_matrix`, `P/common/matrix_utils.hpp` lines 12-14. -/
noncomputable def averageDiagonal (m : M3) : ℂ := (m 0 0 + m 1 1 + m 2 2) / 3

/-- `average_of_off_diagonal_of_matrix`, `P/common/matrix_utils.hpp` lines 16-18: the entry (1, 2) is added twice and the entry
(0, 2) not at all. -/
noncomputable def averageOffDiagonal (m : M3) : ℂ := (m 0 1 + m 1 2 + m 1 0 + m 1 2 + m 2 0 + m 2 1) / 6

/-- `y1_series` and `y1_shunt`, `P/component/asym_line.hpp` lines 96-99. -/
noncomputable def positiveOf (m : M3) : ℂ := averageDiagonal m - averageOffDiagonal m

/-- `AsymLine::sym_calc_param`, `P/component/asym_line.hpp` lines 95-101. -/
noncomputable def AsymLine.sym (l : AsymLine) (f t : Bool) : BranchParam ℂ :=
  calcSym f t (positiveOf l.ySeries) (positiveOf l.yShunt) 1

/-- `AsymLine::asym_calc_param`, `P/component/asym_line.hpp` lines 103-127. -/
noncomputable def AsymLine.asym (l : AsymLine) (f t : Bool) : BranchParam M3 := asymLineAsym f t l.ySeries l.yShunt

/-! ## Shunts -/

/-- The electrical part of `ShuntInput` and `ShuntUpdate`; `none` is NaN. -/
structure ShuntValues where
  g1 : Option ℝ
  b1 : Option ℝ
  g0 : Option ℝ
  b0 : Option ℝ

/-- A `Shunt`: the data and the admittances that were computed from them. -/
structure Shunt where
  data : ShuntValues
  y1 : Option ℂ
  y0 : Option ℂ

/-- `Shunt::update_param`, `P/component/shunt.hpp` lines 100-107: the new value and whether it is changed. -/
noncomputable def updateParam (value target : Option ℝ) : Option ℝ × Bool :=
  open Classical in
  match value with
  | none => (target, false)
  | some v => if target = some v then (target, false) else (some v, true)

/-- `(g + 1.0i * b) / base_y`, `P/component/shunt.hpp` lines 93-94. -/
noncomputable def shuntPu (base : ℝ) : Option ℝ → Option ℝ → Option ℂ
  | some g, some b => some (((g : ℂ) + Complex.I * b) / base)
  | _, _ => none

/-- `Shunt::update_params`, `P/component/shunt.hpp` lines 84-98. -/
noncomputable def Shunt.update (base : ℝ) (s : Shunt) (v : ShuntValues) : Shunt :=
  let g1 := updateParam v.g1 s.data.g1
  let b1 := updateParam v.b1 s.data.b1
  let g0 := updateParam v.g0 s.data.g0
  let b0 := updateParam v.b0 s.data.b0
  let data : ShuntValues := ⟨g1.1, b1.1, g0.1, b0.1⟩
  if g1.2 || b1.2 || g0.2 || b0.2 then ⟨data, shuntPu base data.g1 data.b1, shuntPu base data.g0 data.b0⟩
  else ⟨data, s.y1, s.y0⟩

/-- The constructor of `Shunt`, `P/component/shunt.hpp` lines 31-34 with the initial values of lines 77-82. -/
noncomputable def mkShunt (base : ℝ) (v : ShuntValues) : Shunt := Shunt.update base ⟨⟨none, none, none, none⟩, none, none⟩ v

/-- `Shunt::calc_param<symmetric_t>`, `P/component/shunt.hpp` lines 37-42; `on`: `energized(is_connected_to_source)`. -/
def Shunt.sym (s : Shunt) (on : Bool) : Option ℂ := if !on then some 0 else s.y1

/-- `Shunt::calc_param<asymmetric_t>`, `P/component/shunt.hpp` lines 37-51. -/
noncomputable def Shunt.asym (s : Shunt) (on : Bool) : Option M3 :=
  if !on then some 0 else do
    let y1 ← s.y1
    let y0 ← s.y0
    some (balancedMatrix ((2 * y1 + y0) / 3) ((y0 - y1) / 3))

/-! ## Transformers -/

/-- `TransformerInput`; the tap positions and the clock are raw integers as in `TapInput`. -/
structure TrafoInput where
  u1 : ℝ
  u2 : ℝ
  sn : ℝ
  tapSize : ℝ
  uk : ℝ
  pk : ℝ
  i0 : ℝ
  p0 : ℝ
  i0Zero : Option ℝ
  p0Zero : Option ℝ
  windingFrom : Winding
  windingTo : Winding
  clock : Int
  /-- `tap_side == BranchSide::from` -/
  tapFrom : Bool
  tap : TapInput
  ukMin : Option ℝ
  ukMax : Option ℝ
  pkMin : Option ℝ
  pkMax : Option ℝ
  rgFrom : Option ℝ
  xgFrom : Option ℝ
  rgTo : Option ℝ
  xgTo : Option ℝ

/-- `i0_zero_sequence_`, `P/component/transformer.hpp` line 52. -/
noncomputable def TrafoInput.i0z (i : TrafoInput) : ℝ := i.i0Zero.getD i.i0

/-- `p0_zero_sequence_`, `P/component/transformer.hpp` lines 53-55. -/
noncomputable def TrafoInput.p0z (i : TrafoInput) : ℝ :=
  i.p0Zero.getD (i.p0 + i.pk * (i.i0z * i.i0z - i.i0 * i.i0))

/-- `tap_direction_`, `P/component/transformer.hpp` line 63. -/
def tapDirection (t : TapInput) : ℝ := if t.tapMax > t.tapMin then 1 else -1

/-- `calculate_z_pu`, `P/component/transformer.hpp` lines 167-172. -/
noncomputable def groundingPu (r x : Option ℝ) (u : ℝ) : ℂ :=
  ⟨r.getD 0 / (u * u / basePower3p), x.getD 0 / (u * u / basePower3p)⟩

/-- The pair `u1`, `u2` in `transformer_params`, `P/component/transformer.hpp` lines 184-193, at tap position `pos`. -/
noncomputable def tappedVoltages (i : TrafoInput) (pos : Int) : ℝ × ℝ :=
  if i.tapFrom then (i.u1 + tapDirection i.tap * ((pos - initialNom i.tap : Int) : ℝ) * i.tapSize, i.u2)
  else (i.u1, i.u2 + tapDirection i.tap * ((pos - initialNom i.tap : Int) : ℝ) * i.tapSize)

/-- The data after tap adjustment, `P/component/transformer.hpp` lines 184-197. -/
noncomputable def trafoData (i : TrafoInput) (pos : Int) (u1Rated u2Rated : ℝ) : TransformerData :=
  let u := tappedVoltages i pos
  ⟨u.1, u.2, i.sn,
    tapAdjust (pos : ℝ) i.tap.tapMin i.tap.tapMax (initialNom i.tap) i.uk (i.ukMin.getD i.uk) (i.ukMax.getD i.uk),
    tapAdjust (pos : ℝ) i.tap.tapMin i.tap.tapMax (initialNom i.tap) i.pk (i.pkMin.getD i.pk) (i.pkMax.getD i.pk),
    i.i0, i.p0, u1Rated, u2Rated⟩

/-- `base_y_to`, `P/component/transformer.hpp` line 182. -/
noncomputable def baseYTo (u2Rated : ℝ) : ℝ := baseI u2Rated * baseI u2Rated / basePower1p

/-- `transformer_params` with the members that `asym_calc_param` uses, `P/component/transformer.hpp` lines 181-241 and 311, for a
transformer with clock `clock` at tap position `pos`. -/
noncomputable def trafoParams (i : TrafoInput) (clock pos : Int) (u1Rated u2Rated : ℝ) : TransformerSeq :=
  let d := trafoData i pos u1Rated u2Rated
  { ySeries := (1 / seriesImpedance d) / baseYTo u2Rated
    yShunt := shuntAdmittance d / baseYTo u2Rated
    y0Shunt := shuntAdmittance { d with i0 := i.i0z, p0 := i.p0z } / baseYTo u2Rated
    k := tapRatio d
    clock := clock
    windingFrom := i.windingFrom
    windingTo := i.windingTo
    zgFrom := groundingPu i.rgFrom i.xgFrom u1Rated
    zgTo := groundingPu i.rgTo i.xgTo u2Rated
    lowSusceptance := -(1 / 100000000) * i.sn / basePower3p / i.uk }

/-- The constructor of `Transformer` and the parameters of the new transformer at tap position `pos`,
`P/component/transformer.hpp` lines 42-90. -/
noncomputable def mkTrafo (i : TrafoInput) (pos : Int) (u1Rated u2Rated : ℝ) : Except Refused TransformerSeq :=
  match transformerClock i.clock i.windingFrom i.windingTo with
  | none => .error .invalidTransformerClock
  | some clock => .ok (trafoParams i clock pos u1Rated u2Rated)

end PGM.Physical
