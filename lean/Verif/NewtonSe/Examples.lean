import Verif.NewtonSe.Props
import Verif.Lu.Condition
import Verif.StateEst.Examples

/-!
# C55: a grid that meets the hypotheses

Two buses and a line. The phasors of both voltages and the power of the line are measured, and one bus must have no injection. From voltages of one, an
iteration is accepted for all values of the measurements; for exact measurements the estimation returns.
-/

namespace PGM.NewtonSe

open PGM.YBus PGM.Lu PGM.PowerFlow PGM.StateEst Matrix
open PGM.NewtonPf (RM Polar phasor)

variable {s : Symm}

/-! ## The blocks as forms -/

variable {N : SeNet s} {M : Measured s} {st : State s} {x : Sys s}

theorem sum_sub' {ι : Type} (l : List ι) (f g : ι → ℝ) : (l.map fun i => f i - g i).sum = (l.map f).sum - (l.map g).sum := by
  induction l with
  | nil => simp
  | cons i l ih =>
    simp only [List.map_cons, List.sum_cons, ih]
    ring

/-- The first quarters of the blocks are the normal equations of the readings. -/
theorem gain_tested (hN : N.Valid) (hM : Variances M) (hu : MeasuredUncoupled N.y.param M) (hc : MeasuredClosed N.T M)
    (hx : NonZero N.T.nBus st.x) (h : Prepared N M st x) (e w : Nat → Polar s) :
    ∑ r ∈ Finset.range N.T.nBus, vecs w r ⬝ᵥ ∑ c ∈ Finset.range N.T.nBus, (blockAt N.S x r c).g.mulVec (vecs e c) =
      ((mainReadings N.T N.y.param N.slack M).map fun R => R.slope st.x e * R.slope st.x w / R.var).sum := by
  let o : Nat → Polar s := fun _ => ⟨fun _ => 0, fun _ => 0⟩
  have h1 : _ = ((mainReadings N.T N.y.param N.slack M).map (Reading.pair st.x o w)).sum := first_tested hN hu hc hx o w
  have h2 : _ = ((mainReadings N.T N.y.param N.slack M).map (Reading.pair st.x (plus o e) w)).sum := first_tested hN hu hc hx (plus o e) w
  have h3 : ∀ r ∈ Finset.range N.T.nBus, vecs w r ⬝ᵥ mainTerm N M st.x (vecs (plus o e)) r = vecs w r ⬝ᵥ mainTerm N M st.x (vecs o) r -
      vecs w r ⬝ᵥ ∑ c ∈ Finset.range N.T.nBus, (blockAt N.S x r c).g.mulVec (vecs e c) := fun r hr => by
    rw [vecs_plus, main_linear hN h (Finset.mem_range.mp hr), dotProduct_sub]
  have h4 : ((mainReadings N.T N.y.param N.slack M).map (Reading.pair st.x (plus o e) w)).sum =
      ((mainReadings N.T N.y.param N.slack M).map (Reading.pair st.x o w)).sum -
        ((mainReadings N.T N.y.param N.slack M).map fun R => R.slope st.x e * R.slope st.x w / R.var).sum := by
    rw [← sum_sub']
    congr 1
    refine List.map_congr_left fun R hR => ?_
    unfold Reading.pair
    rw [misfit_plus (main_additive hN.topo hM hu hc hx hR).1]
    ring
  rw [h4, ← h1] at h2
  have h5 := (Finset.sum_congr rfl h3).symm.trans h2
  rw [Finset.sum_sub_distrib] at h5
  have h6 : ∑ r ∈ Finset.range N.T.nBus, vecs w r ⬝ᵥ mainTerm N M st.x (vecs o) r = ∑ r ∈ Finset.range N.T.nBus,
      vecs w r ⬝ᵥ ((rowEntries N.S r).map fun k => startTerm N M st.x (vecs o) r k + elemsTerm N M st.x (vecs o) r k).sum := rfl
  rw [h6] at h5
  linarith

/-- A direction at one bus. -/
noncomputable def onlyAt (c : Nat) (v : QV s) : Nat → Polar s := ofVecs (Pi.single c v)

theorem gain_entry (hN : N.Valid) (hM : Variances M) (hu : MeasuredUncoupled N.y.param M) (hc : MeasuredClosed N.T M)
    (hx : NonZero N.T.nBus st.x) (h : Prepared N M st x) {r c : Nat} (hr : r < N.T.nBus) (hcn : c < N.T.nBus) (v : QV s) (i : Two s) :
    (blockAt N.S x r c).g.mulVec v i =
      ((mainReadings N.T N.y.param N.slack M).map fun R => R.slope st.x (onlyAt c v) * R.slope st.x (onlyAt r (Pi.single i 1)) / R.var).sum := by
  rw [← gain_tested hN hM hu hc hx h]
  unfold onlyAt
  rw [vecs_ofVecs, vecs_ofVecs, Finset.sum_eq_single_of_mem r (Finset.mem_range.mpr hr)
    (fun r' _ hne => by rw [Pi.single_eq_of_ne hne, zero_dotProduct]), Pi.single_eq_same, single_one_dotProduct,
    Finset.sum_eq_single_of_mem c (Finset.mem_range.mpr hcn) (fun c' _ hne => by rw [Pi.single_eq_of_ne hne, mulVec_zero]), Pi.single_eq_same]

theorem q_entry (hN : N.Valid) (h : Prepared N M st x) {r c : Nat} (hr : r < N.T.nBus) (hcn : c < N.T.nBus) (v : QV s) :
    (blockAt N.S x r c).q.mulVec v = measuredSlope N M st.x (Pi.single c v) r := by
  rw [← h.q hN hr, Finset.sum_eq_single_of_mem c (Finset.mem_range.mpr hcn) (fun c' _ hne => by rw [Pi.single_eq_of_ne hne, mulVec_zero]),
    Pi.single_eq_same]

theorem r_entry (hN : N.Valid) (h : Prepared N M st x) {r c : Nat} (hr : r < N.T.nBus) (hcn : c < N.T.nBus) (v : QV s) :
    (blockAt N.S x r c).r.mulVec v = (rBlock M r).mulVec ((Pi.single c v : Nat → QV s) r) := by
  rw [← h.rblock hN hr, Finset.sum_eq_single_of_mem c (Finset.mem_range.mpr hcn) (fun c' _ hne => by rw [Pi.single_eq_of_ne hne, mulVec_zero]),
    Pi.single_eq_same]

/-! ## Symmetric values -/

/-- A pair of symmetric values. -/
def two (a b : ℝ) : QV .sym := Sum.elim (fun _ => a) (fun _ => b)

theorem qv_two (v : QV .sym) : v = two (v (.inl (0 : Fin 1))) (v (.inr (0 : Fin 1))) := by
  funext i
  rcases i with p | p
  · show v (.inl p) = v (.inl (0 : Fin 1))
    rw [Fin.fin_one_eq_zero p]
  · show v (.inr p) = v (.inr (0 : Fin 1))
    rw [Fin.fin_one_eq_zero p]

theorem single_inl (q : Fin Symm.sym.phases) : (Pi.single (Sum.inl q) 1 : QV .sym) = two 1 0 := by
  funext i
  rcases i with p | p
  · rw [show p = q from Subsingleton.elim (α := Fin 1) p q, Pi.single_eq_same]
    rfl
  · rw [Pi.single_eq_of_ne (by simp)]
    rfl

theorem single_inr (q : Fin Symm.sym.phases) : (Pi.single (Sum.inr q) 1 : QV .sym) = two 0 1 := by
  funext i
  rcases i with p | p
  · rw [Pi.single_eq_of_ne (by simp)]
    rfl
  · rw [show p = q from Subsingleton.elim (α := Fin 1) p q, Pi.single_eq_same]
    rfl

/-- A matrix of one value. -/
def konst {K : Type} (a : K) : Matrix (Fin Symm.sym.phases) (Fin Symm.sym.phases) K := Matrix.of fun _ _ => a

theorem eq_konst {K : Type} {m : Matrix (Fin Symm.sym.phases) (Fin Symm.sym.phases) K} {a : K} (h : m (0 : Fin 1) (0 : Fin 1) = a) : m = konst a := by
  ext p q
  rw [Fin.fin_one_eq_zero p, Fin.fin_one_eq_zero q]
  exact h

/-- A block of symmetric values. -/
def quad (a b c d : ℝ) : QM .sym := fromBlocks (konst a) (konst b) (konst c) (konst d)

theorem sum_two (f : Two .sym → ℝ) : ∑ i, f i = f (.inl (0 : Fin 1)) + f (.inr (0 : Fin 1)) := by
  rw [Fintype.sum_sum_type]
  show (∑ i : Fin 1, f (.inl i)) + ∑ i : Fin 1, f (.inr i) = _
  rw [Fin.sum_univ_one, Fin.sum_univ_one]

theorem quad_two (a b c d u v : ℝ) : (quad a b c d).mulVec (two u v) = two (a * u + b * v) (c * u + d * v) := by
  funext i
  unfold Matrix.mulVec dotProduct
  rw [sum_two]
  rcases i with p | p <;> rfl

theorem eq_quad {m : QM .sym} {a b c d : ℝ} (h : ∀ u v, m.mulVec (two u v) = two (a * u + b * v) (c * u + d * v)) : m = quad a b c d := by
  apply Matrix.ext_of_mulVec_single
  intro i
  rw [qv_two (Pi.single i 1), h, quad_two]

theorem quad_transpose (a b c d : ℝ) : (quad a b c d).transpose = quad a c b d := by
  unfold quad
  rw [fromBlocks_transpose]
  rfl

/-! ## The example -/

/-- The measurements. -/
noncomputable def exM (a b : ℝ) (p : ℂ) : Measured .sym where
  voltage i := if i = 0 then some ⟨.phasor (one a), 1⟩ else some ⟨.phasor (one b), 1⟩
  injection i := if i = 1 then some ⟨one 0, fun _ => 0, fun _ => 0⟩ else none
  shunt _ := none
  branchPower side k := if side = 0 ∧ k = 0 then some ⟨one p, fun _ => 1, fun _ => 1⟩ else none
  branchCurrent _ _ := none

/-- Voltages of one. -/
def flat (_ : Nat) : Polar .sym := ⟨fun _ => 0, fun _ => 1⟩

theorem flat_phasor (b : Nat) : phasor (flat b) = one 1 := by
  funext p
  simp [PGM.NewtonPf.phasor, flat, StateEst.one]

theorem exM_variances (a b : ℝ) (p : ℂ) : Variances (exM a b p) where
  voltage i m h := by
    simp only [exM] at h
    split_ifs at h <;> (injection h with h; rw [← h]; exact one_pos)
  injection i m h q := by
    simp only [exM] at h
    split_ifs at h
    injection h with h
    rw [← h]
    exact ⟨le_refl _, le_refl _⟩
  shunt k m h := by cases h
  power side k m h q := by
    simp only [exM] at h
    split_ifs at h
    injection h with h
    rw [← h]
    exact ⟨one_pos, one_pos⟩
  current side k m h := by cases h

theorem exM_closed (a b : ℝ) (p : ℂ) : MeasuredClosed exTopo2 (exM a b p) := by
  intro b hb side _
  simp only [exTopo2, List.zipIdx_singleton, List.mem_singleton] at hb
  subst hb
  simp

theorem flat_nonzero (n : Nat) : NonZero n flat := fun _ _ _ => one_ne_zero

/-! ### Derivatives -/

theorem hm_flat (m : CM .sym) (b c : Nat) : hmForm m (phasor (flat b)) (phasor (flat c)) = konst (star (m (0 : Fin 1) (0 : Fin 1))) := by
  rw [flat_phasor, flat_phasor]
  refine eq_konst ?_
  simp [hmForm, StateEst.one]

theorem scale_flat (m : CM .sym) (c : Nat) : scaleCols m (flat c).v = m := by
  ext p q
  simp [scaleCols, flat]

theorem jacobian_real (y : ℝ) : jacobian (konst (star (y : ℂ))) (konst (star (y : ℂ))) = quad 0 y (-y) 0 := by
  unfold jacobian quad
  have h1 : imM (konst (star (y : ℂ)) : CM .sym) = konst 0 := eq_konst (by show (star (y : ℂ)).im = 0; simp)
  have h2 : reM (konst (star (y : ℂ)) : CM .sym) = konst y := eq_konst (by show (star (y : ℂ)).re = y; simp)
  have h3 : -(konst y : RM .sym) = konst (-y) := eq_konst rfl
  rw [h1, h2, h3]

theorem diagonal_real (y : ℝ) : diagonalPart (s := .sym) (fun _ => (y : ℂ)) (fun _ => (y : ℂ)) = quad 0 y y 0 := by
  unfold diagonalPart quad
  congr 1 <;> refine eq_konst ?_
  · exact (diagonal_apply_eq (n := Fin 1) _ _).trans (by simp)
  · exact (diagonal_apply_eq (n := Fin 1) _ _).trans (by simp)
  · exact (diagonal_apply_eq (n := Fin 1) _ _).trans (by simp)
  · exact (diagonal_apply_eq (n := Fin 1) _ _).trans (by simp)

theorem sumRow_konst (y : ℂ) : sumRow (s := .sym) (konst y) = fun _ => y := by
  funext p
  have h : ∑ q : Fin 1, (konst y : CM .sym) p q = y := Fin.sum_univ_one _
  exact h

theorem injSlope_flat (d : Nat → QV .sym) : injSlope exTopo2 exParam2 flat 1 d =
    two (d 1 (.inr (0 : Fin 1)) - d 0 (.inr (0 : Fin 1))) (d 0 (.inl (0 : Fin 1)) - d 1 (.inl (0 : Fin 1))) := by
  obtain ⟨_, _, n3, n4⟩ := exNodal
  unfold injSlope
  show ∑ c ∈ Finset.range 2, _ = _
  have one' : ∀ f : CV .sym, (fun p => ((1 / (flat 1).v p : ℝ) : ℂ) * f p) = f := fun f => by funext p; simp [flat]
  rw [Finset.sum_range_succ, Finset.sum_range_one]
  simp only [hm_flat, scale_flat, sumRow_konst, one', n3, n4]
  have s1 : star (-1 : ℂ) = star ((-1 : ℝ) : ℂ) := by simp
  have s2 : star (1 : ℂ) = star ((1 : ℝ) : ℂ) := by simp
  have s3 : star ((-1 : ℝ) : ℂ) = ((-1 : ℝ) : ℂ) := by simp
  have s4 : star ((1 : ℝ) : ℂ) = ((1 : ℝ) : ℂ) := by simp
  rw [s1, s2, jacobian_real, jacobian_real, s3, s4, diagonal_real, diagonal_real]
  obtain ⟨t0, v0, h0⟩ : ∃ t v, d 0 = two t v := ⟨_, _, qv_two _⟩
  obtain ⟨t1, v1, h1⟩ : ∃ t v, d 1 = two t v := ⟨_, _, qv_two _⟩
  rw [h0, h1, quad_two, quad_two, quad_two, quad_two]
  funext i
  rcases i with i | i
  · show 0 * t0 + -1 * v0 + (0 * t1 + -1 * v1) + (0 * t1 + 1 * v1 + (0 * t1 + 1 * v1)) = v1 - v0
    ring
  · show - -1 * t0 + 0 * v0 + (-1 * t1 + 0 * v1) + (-1 * t1 + 0 * v1 + (1 * t1 + 0 * v1)) = t0 - t1
    ring

/-- The power of the line. -/
noncomputable def exPower (x : Nat → Polar .sym) : CV .sym :=
  fun p => phasors x 0 p * star (((exParam2.ff 0).mulVec (phasors x 0) + (exParam2.ft 0).mulVec (phasors x 1)) p)

theorem exPower_slope (d : Nat → Polar .sym) (a b : ℝ) :
    Reading.slope ⟨fun x => (exPower x (0 : Fin 1)).re, a, b⟩ flat d = (d 0).v (0 : Fin 1) - (d 1).v (0 : Fin 1) ∧
    Reading.slope ⟨fun x => (exPower x (0 : Fin 1)).im, a, b⟩ flat d = (d 1).theta (0 : Fin 1) - (d 0).theta (0 : Fin 1) := by
  have h := complex_slope (power_linearises (exParam2.ff 0) (exParam2.ft 0) flat 0 1 (fun _ => one_ne_zero) fun _ => one_ne_zero) d (0 : Fin 1) a b
  have hf : (exParam2.ff 0) (0 : Fin 1) (0 : Fin 1) = ((1 : ℝ) : ℂ) := by simp [exParam2]
  have ht : (exParam2.ft 0) (0 : Fin 1) (0 : Fin 1) = ((-1 : ℝ) : ℂ) := by simp [exParam2]
  have one' : ∀ f : CV .sym, (fun p => ((1 / (flat 0).v p : ℝ) : ℂ) * f p) = f := fun f => by funext p; simp [flat]
  have ha : ∀ y z : ℝ, (konst (star (y : ℂ)) : CM .sym) + konst (star (z : ℂ)) = konst ((y + z : ℝ) : ℂ) := fun y z => by
    refine eq_konst ?_
    show star (y : ℂ) + star (z : ℂ) = _
    simp
  have ho : (powerFlow (exParam2.ff 0) (exParam2.ft 0) (flat 0) (flat 1)).own = quad 0 1 (-1) 0 := by
    unfold powerFlow
    simp only [hm_flat, scale_flat, hf, ht, ha, sumRow_konst, one']
    rw [jacobian_real, diagonal_real]
    unfold quad
    rw [fromBlocks_add]
    congr 1 <;> refine eq_konst ?_
    · exact add_zero (0 : ℝ)
    · show (1 : ℝ) + (1 + -1) = 1
      norm_num
    · show (-1 : ℝ) + (1 + -1) = -1
      norm_num
    · exact add_zero (0 : ℝ)
  have hto : (powerFlow (exParam2.ff 0) (exParam2.ft 0) (flat 0) (flat 1)).other = quad 0 (-1) 1 0 := by
    unfold powerFlow
    simp only [hm_flat, scale_flat, ht]
    rw [jacobian_real, neg_neg]
  rw [ho, hto] at h
  have e0 : ∀ b, vec (d b) = two ((d b).theta (0 : Fin 1)) ((d b).v (0 : Fin 1)) := fun b => qv_two _
  rw [e0, e0, quad_two, quad_two] at h
  refine ⟨h.1.trans ?_, h.2.trans ?_⟩
  · show 0 * (d 0).theta (0 : Fin 1) + 1 * (d 0).v (0 : Fin 1) + (0 * (d 1).theta (0 : Fin 1) + -1 * (d 1).v (0 : Fin 1)) = _
    ring
  · show -1 * (d 0).theta (0 : Fin 1) + 0 * (d 0).v (0 : Fin 1) + (1 * (d 1).theta (0 : Fin 1) + 0 * (d 1).v (0 : Fin 1)) = _
    ring

theorem exMain (a b : ℝ) (p : ℂ) (f : Reading .sym → ℝ) : ((mainReadings exTopo2 exParam2 0 (exM a b p)).map f).sum =
    f ⟨fun x => (x 0).v (0 : Fin 1), ‖(a : ℂ)‖, 1⟩ + f ⟨fun x => (x 0).theta (0 : Fin 1), Complex.arg a, 1⟩ +
    (f ⟨fun x => (x 1).v (0 : Fin 1), ‖(b : ℂ)‖, 1⟩ + f ⟨fun x => (x 1).theta (0 : Fin 1), Complex.arg b, 1⟩) +
    (f ⟨fun x => (exPower x (0 : Fin 1)).re, p.re, 1⟩ + f ⟨fun x => (exPower x (0 : Fin 1)).im, p.im, 1⟩) := by
  have e : mainReadings exTopo2 exParam2 0 (exM a b p) =
      [⟨fun x => (x 0).v (0 : Fin 1), ‖(a : ℂ)‖, 1⟩, ⟨fun x => (x 0).theta (0 : Fin 1), Complex.arg a, 1⟩,
        ⟨fun x => (x 1).v (0 : Fin 1), ‖(b : ℂ)‖, 1⟩, ⟨fun x => (x 1).theta (0 : Fin 1), Complex.arg b, 1⟩,
        ⟨fun x => (exPower x (0 : Fin 1)).re, p.re, 1⟩, ⟨fun x => (exPower x (0 : Fin 1)).im, p.im, 1⟩] := by
    rfl
  rw [e]
  simp only [List.map_cons, List.map_nil, List.sum_cons, List.sum_nil]
  ring

/-- The normal equations of the example. -/
theorem exForm (a b : ℝ) (p : ℂ) (e w : Nat → Polar .sym) :
    ((mainReadings exTopo2 exParam2 0 (exM a b p)).map fun R => R.slope flat e * R.slope flat w / R.var).sum =
      (e 0).v (0 : Fin 1) * (w 0).v (0 : Fin 1) + (e 0).theta (0 : Fin 1) * (w 0).theta (0 : Fin 1) +
      ((e 1).v (0 : Fin 1) * (w 1).v (0 : Fin 1) + (e 1).theta (0 : Fin 1) * (w 1).theta (0 : Fin 1)) +
      (((e 0).v (0 : Fin 1) - (e 1).v (0 : Fin 1)) * ((w 0).v (0 : Fin 1) - (w 1).v (0 : Fin 1)) +
        ((e 1).theta (0 : Fin 1) - (e 0).theta (0 : Fin 1)) * ((w 1).theta (0 : Fin 1) - (w 0).theta (0 : Fin 1))) := by
  have hv : ∀ (b : Nat) (a : ℝ) (d : Nat → Polar .sym), Reading.slope (s := .sym) ⟨fun x => (x b).v (0 : Fin 1), a, 1⟩ flat d = (d b).v (0 : Fin 1) :=
    fun b a d => slope_v (s := .sym) b (0 : Fin 1) a 1 flat d
  have ht : ∀ (b : Nat) (a : ℝ) (d : Nat → Polar .sym), Reading.slope (s := .sym) ⟨fun x => (x b).theta (0 : Fin 1), a, 1⟩ flat d = (d b).theta (0 : Fin 1) :=
    fun b a d => slope_theta (s := .sym) b (0 : Fin 1) a 1 flat d
  rw [exMain]
  simp only [(exPower_slope _ _ _).1, (exPower_slope _ _ _).2, hv, ht, div_one]

/-! ### Blocks -/

theorem onlyAt_theta (c b : Nat) (v : QV s) (p : Fin s.phases) : (onlyAt c v b).theta p = if b = c then v (.inl p) else 0 := by
  show (Pi.single c v : Nat → QV s) b (.inl p) = _
  rw [Pi.single_apply]
  split_ifs <;> rfl

theorem onlyAt_v (c b : Nat) (v : QV s) (p : Fin s.phases) : (onlyAt c v b).v p = if b = c then v (.inr p) else 0 := by
  show (Pi.single c v : Nat → QV s) b (.inr p) = _
  rw [Pi.single_apply]
  split_ifs <;> rfl

/-- The blocks of the example. -/
theorem exBlocks {S : YBus.Structure} (hS : build exTopo2 = some S) (a b : ℝ) (p : ℂ) {st : State .sym} (hst : st.x = flat) {x : Sys .sym}
    (h : Prepared (exSeNet S) (exM a b p) st x) :
    blockAt S x 0 0 = ⟨quad 2 0 0 2, quad 0 0 0 0, quad 0 0 0 0, quad (-1) 0 0 (-1)⟩ ∧
    blockAt S x 0 1 = ⟨quad (-1) 0 0 (-1), quad 0 1 (-1) 0, quad 0 0 0 0, quad 0 0 0 0⟩ ∧
    blockAt S x 1 0 = ⟨quad (-1) 0 0 (-1), quad 0 0 0 0, quad 0 (-1) 1 0, quad 0 0 0 0⟩ ∧
    blockAt S x 1 1 = ⟨quad 2 0 0 2, quad 0 (-1) 1 0, quad 0 1 (-1) 0, quad 0 0 0 0⟩ := by
  have hN := exSeNet_valid hS
  have hp := exSeNet_param S
  have lt : ∀ {r}, r < 2 → r < (exSeNet S).T.nBus := fun hr => hr
  have hx : NonZero (exSeNet S).T.nBus st.x := by rw [hst]; exact flat_nonzero _
  have G : ∀ (r c : Nat), r < 2 → c < 2 → ∀ (v : QV .sym) (i : Two .sym), (blockAt S x r c).g.mulVec v i =
      ((mainReadings exTopo2 exParam2 0 (exM a b p)).map fun R => R.slope flat (onlyAt c v) * R.slope flat (onlyAt r (Pi.single i 1)) / R.var).sum := by
    intro r c hr hc v i
    have e := gain_entry hN (exM_variances a b p) (sym_uncoupled _ _) (exM_closed a b p) hx h (lt hr) (lt hc) v i
    rw [hp, hst] at e
    exact e
  have g : ∀ (r c : Nat), r < 2 → c < 2 → (blockAt S x r c).g = if r = c then quad 2 0 0 2 else quad (-1) 0 0 (-1) := by
    intro r c hr hc
    have hr' : r = 0 ∨ r = 1 := by omega
    have hc' : c = 0 ∨ c = 1 := by omega
    have key : ∀ u v y z : ℝ, ((mainReadings exTopo2 exParam2 0 (exM a b p)).map fun R =>
        R.slope flat (onlyAt c (two u v)) * R.slope flat (onlyAt r (two 1 0)) / R.var).sum = y →
        ((mainReadings exTopo2 exParam2 0 (exM a b p)).map fun R =>
        R.slope flat (onlyAt c (two u v)) * R.slope flat (onlyAt r (two 0 1)) / R.var).sum = z →
        (blockAt S x r c).g.mulVec (two u v) = two y z := fun u v y z h1 h2 => by
      funext i
      rw [G r c hr hc]
      rcases i with q | q
      · rw [single_inl]; exact h1
      · rw [single_inr]; exact h2
    have o1 : ∀ (c b : Nat) (v : QV .sym), (onlyAt c v b).theta (0 : Fin 1) = if b = c then v (.inl (0 : Fin 1)) else 0 := fun c b v => onlyAt_theta c b v _
    have o2 : ∀ (c b : Nat) (v : QV .sym), (onlyAt c v b).v (0 : Fin 1) = if b = c then v (.inr (0 : Fin 1)) else 0 := fun c b v => onlyAt_v c b v _
    have t1 : ∀ (u v : ℝ) (q : Fin 1), two u v (.inl q) = u := fun _ _ _ => rfl
    have t2 : ∀ (u v : ℝ) (q : Fin 1), two u v (.inr q) = v := fun _ _ _ => rfl
    rcases hr' with rfl | rfl <;> rcases hc' with rfl | rfl <;> refine eq_quad fun u v => key _ _ _ _ ?_ ?_ <;> rw [exForm] <;>
      simp only [o1, o2, t1, t2] <;> norm_num <;> ring
  have Q : ∀ (r c : Nat), r < 2 → c < 2 → ∀ v : QV .sym, (blockAt S x r c).q.mulVec v = measuredSlope (exSeNet S) (exM a b p) flat (Pi.single c v) r :=
    fun r c hr hc v => by
      have e := q_entry hN h (lt hr) (lt hc) v
      rw [hst] at e
      exact e
  have z0 : ∀ u v : ℝ, (0 : QV .sym) = two (0 * u + 0 * v) (0 * u + 0 * v) := fun u v => by
    funext i
    rcases i with i | i
    · show (0 : ℝ) = 0 * u + 0 * v
      ring
    · show (0 : ℝ) = 0 * u + 0 * v
      ring
  have q0 : ∀ c, c < 2 → (blockAt S x 0 c).q = quad 0 0 0 0 := fun c hc => eq_quad fun u v => by
    rw [Q 0 c (by omega) hc, ← z0]
    rfl
  have q1 : ∀ c, c < 2 → ∀ u v : ℝ, (blockAt S x 1 c).q.mulVec (two u v) = injSlope exTopo2 exParam2 flat 1 (Pi.single c (two u v)) := fun c hc u v => by
    rw [Q 1 c (by omega) hc]
    show injSlope exTopo2 (exSeNet S).y.param flat 1 _ = _
    rw [hp]
  have q10 : (blockAt S x 1 0).q = quad 0 (-1) 1 0 := eq_quad fun u v => by
    rw [q1 0 (by omega), injSlope_flat, Pi.single_eq_same, Pi.single_eq_of_ne (by decide)]
    congr 1
    · show (0 : ℝ) - v = _
      ring
    · show u - (0 : ℝ) = _
      ring
  have q11 : (blockAt S x 1 1).q = quad 0 1 (-1) 0 := eq_quad fun u v => by
    rw [q1 1 (by omega), injSlope_flat, Pi.single_eq_same, Pi.single_eq_of_ne (by decide)]
    congr 1
    · show v - (0 : ℝ) = _
      ring
    · show (0 : ℝ) - u = _
      ring
  have R : ∀ (r c : Nat), r < 2 → c < 2 → ∀ v : QV .sym, (blockAt S x r c).r.mulVec v = (rBlock (exM a b p) r).mulVec ((Pi.single c v : Nat → QV .sym) r) :=
    fun r c hr hc v => r_entry hN h (lt hr) (lt hc) v
  have rz : ∀ (r c : Nat), r < 2 → c < 2 → r ≠ c → (blockAt S x r c).r = quad 0 0 0 0 := fun r c hr hc hne => eq_quad fun u v => by
    rw [R r c hr hc, Pi.single_eq_of_ne hne, mulVec_zero, ← z0]
  have r0 : rBlock (exM a b p) 0 = quad (-1) 0 0 (-1) := by
    unfold rBlock quad
    congr 1 <;> refine eq_konst ?_
    · exact diagonal_apply_eq (n := Fin 1) _ _
    · exact diagonal_apply_eq (n := Fin 1) _ _
  have r1 : rBlock (exM a b p) 1 = quad 0 0 0 0 := by
    unfold rBlock quad
    congr 1 <;> refine eq_konst ?_
    · exact (diagonal_apply_eq (n := Fin 1) _ _).trans neg_zero
    · exact (diagonal_apply_eq (n := Fin 1) _ _).trans neg_zero
  have r00 : (blockAt S x 0 0).r = quad (-1) 0 0 (-1) := eq_quad fun u v => by
    rw [R 0 0 (by omega) (by omega), Pi.single_eq_same, r0, quad_two]
  have r11 : (blockAt S x 1 1).r = quad 0 0 0 0 := eq_quad fun u v => by
    rw [R 1 1 (by omega) (by omega), Pi.single_eq_same, r1, quad_two]
  have tr : ∀ (r c : Nat), r < 2 → c < 2 → (blockAt S x r c).qt = ((blockAt S x c r).q).transpose := fun r c hr hc => h.transposed hN (lt hr) (lt hc)
  have eta : ∀ {B : Block .sym} {g qt q r : QM .sym}, B.g = g → B.qt = qt → B.q = q → B.r = r → B = ⟨g, qt, q, r⟩ := by
    rintro ⟨_, _, _, _⟩ _ _ _ _ rfl rfl rfl rfl
    rfl
  refine ⟨eta (by rw [g 0 0 (by omega) (by omega), if_pos rfl]) ?_ (q0 0 (by omega)) r00, eta (by rw [g 0 1 (by omega) (by omega), if_neg (by decide)]) ?_ (q0 1 (by omega)) (rz 0 1 (by omega) (by omega) (by decide)),
    eta (by rw [g 1 0 (by omega) (by omega), if_neg (by decide)]) ?_ q10 (rz 1 0 (by omega) (by omega) (by decide)), eta (by rw [g 1 1 (by omega) (by omega), if_pos rfl]) ?_ q11 r11⟩
  · rw [tr 0 0 (by omega) (by omega), q0 0 (by omega), quad_transpose]
  · rw [tr 0 1 (by omega) (by omega), q10, quad_transpose]
  · rw [tr 1 0 (by omega) (by omega), q0 1 (by omega), quad_transpose]
  · rw [tr 1 1 (by omega) (by omega), q11, quad_transpose]

theorem toBlk_quads (a b c d e f g h i j k l m n o p : ℝ) : (Block.toBlk (s := .sym) ⟨quad a b e f, quad c d g h, quad i j m n, quad k l o p⟩ : Blk ℝ 4) =
    !![a, b, c, d; e, f, g, h; i, j, k, l; m, n, o, p] := by
  ext r q
  fin_cases r <;> fin_cases q <;> rfl

theorem blk_ext {A B : Blk ℝ 4} (h : ∀ a b c d, A.mulVec ![a, b, c, d] = B.mulVec ![a, b, c, d]) : A = B := by
  apply Matrix.ext_of_mulVec_single
  intro i
  have : (Pi.single i 1 : Fin 4 → ℝ) = ![(Pi.single i 1 : Fin 4 → ℝ) 0, (Pi.single i 1 : Fin 4 → ℝ) 1, (Pi.single i 1 : Fin 4 → ℝ) 2, (Pi.single i 1 : Fin 4 → ℝ) 3] := by
    funext j
    fin_cases j <;> rfl
  rw [this, h]

theorem pivot0 (flag : Bool) : factorizeBlock 0 false (!![2, 0, 0, 0; 0, 2, 0, 0; 0, 0, -1, 0; 0, 0, 0, -1] : Blk ℝ 4) flag ≠ none := by
  refine factorize_conditioned _ flag (m := 2) (c := 1) ?_ ?_ (by norm_num)
  · intro i j
    fin_cases i <;> fin_cases j <;> simp
  · intro y t h
    have h0 := h 0
    have h1 := h 1
    have h2 := h 2
    have h3 := h 3
    simp only [Matrix.mulVec, dotProduct, Fin.sum_univ_four, Matrix.of_apply, Matrix.cons_val, Real.norm_eq_abs, abs_le] at h0 h1 h2 h3
    intro i
    rw [Real.norm_eq_abs, abs_le, one_mul]
    fin_cases i <;> constructor <;> simp <;> linarith [h0.1, h1.1, h2.1, h3.1, h0.2, h1.2, h2.2, h3.2]

theorem pivot1 (flag : Bool) :
    factorizeBlock 0 false (!![3 / 2, 0, 0, -1 / 2; 0, 3 / 2, 1 / 2, 0; 0, 1 / 2, -1 / 2, 0; -1 / 2, 0, 0, -1 / 2] : Blk ℝ 4) flag ≠ none := by
  refine factorize_conditioned _ flag (m := 2) (c := 3) ?_ ?_ (by norm_num)
  · intro i j
    fin_cases i <;> fin_cases j <;> simp [abs_le] <;> norm_num
  · intro y t h
    have h0 := h 0
    have h1 := h 1
    have h2 := h 2
    have h3 := h 3
    simp only [Matrix.mulVec, dotProduct, Fin.sum_univ_four, Matrix.of_apply, Matrix.cons_val, Real.norm_eq_abs, abs_le] at h0 h1 h2 h3
    intro i
    rw [Real.norm_eq_abs, abs_le]
    fin_cases i <;> constructor <;> simp <;> linarith [h0.1, h1.1, h2.1, h3.1, h0.2, h1.2, h2.2, h3.2]

theorem pivotRow0 (a b c d : ℝ) :
    (!![2, 0, 0, 0; 0, 2, 0, 0; 0, 0, -1, 0; 0, 0, 0, -1] : Blk ℝ 4).mulVec ![(a - d) / 2, (b + c) / 2, 0, 0] +
      (!![-1, 0, 0, 1; 0, -1, -1, 0; 0, 0, 0, 0; 0, 0, 0, 0] : Blk ℝ 4).mulVec ![a, b, c, d] = 0 := by
  funext i
  fin_cases i <;> simp [Matrix.mulVec, dotProduct, Fin.sum_univ_four] <;> ring

theorem pivotRow1 (a b c d : ℝ) :
    (!![-1, 0, 0, 0; 0, -1, 0, 0; 0, -1, 0, 0; 1, 0, 0, 0] : Blk ℝ 4).mulVec ![(a - d) / 2, (b + c) / 2, 0, 0] +
      (!![2, 0, 0, -1; 0, 2, 1, 0; 0, 1, 0, 0; -1, 0, 0, 0] : Blk ℝ 4).mulVec ![a, b, c, d] =
    (!![3 / 2, 0, 0, -1 / 2; 0, 3 / 2, 1 / 2, 0; 0, 1 / 2, -1 / 2, 0; -1 / 2, 0, 0, -1 / 2] : Blk ℝ 4).mulVec ![a, b, c, d] := by
  funext i
  fin_cases i <;> simp [Matrix.mulVec, dotProduct, Fin.sum_univ_four] <;> ring

/-- The factorisation of the example succeeds. -/
theorem exAccepted {S : YBus.Structure} (hS : build exTopo2 = some S) (a b : ℝ) (p : ℂ) {st : State .sym} (hst : st.x = flat) {x : Sys .sym}
    (h : Prepared (exSeNet S) (exM a b p) st x) (hlen : x.gain.length = S.colIndicesLu.length)
    (perms : List (BlockPerm ((Symm.sym.phases + Symm.sym.phases) + (Symm.sym.phases + Symm.sym.phases)))) (hp : perms.length = 2) :
    ∃ f, prefactorize (luPattern S) false (x.gain.map Block.toBlk) perms = .ok f := by
  have hN := exSeNet_valid hS
  have hA := gain_holds hN (x := x) hlen
  obtain ⟨b00, b01, b10, b11⟩ := exBlocks hS a b p hst h
  refine block_accepted (structure_valid hN.topo hN.fill hN.structure_) _ _ perms hA hp ?_
  intro k hk B hB flag
  have hk' : k = 0 ∨ k = 1 := by
    have : k < 2 := hk
    omega
  have hm : ∀ r c, matrixOf (luPattern (exSeNet S).S) (x.gain.map Block.toBlk) r c = (blockAt S x r c).toBlk := matrixOf_eq hN x
  have B00 : ((blockAt S x 0 0).toBlk : Blk ℝ 4) = !![2, 0, 0, 0; 0, 2, 0, 0; 0, 0, -1, 0; 0, 0, 0, -1] := by
    rw [b00]; exact toBlk_quads _ _ _ _ _ _ _ _ _ _ _ _ _ _ _ _
  have B01 : ((blockAt S x 0 1).toBlk : Blk ℝ 4) = !![-1, 0, 0, 1; 0, -1, -1, 0; 0, 0, 0, 0; 0, 0, 0, 0] := by
    rw [b01]; exact toBlk_quads _ _ _ _ _ _ _ _ _ _ _ _ _ _ _ _
  have B10 : ((blockAt S x 1 0).toBlk : Blk ℝ 4) = !![-1, 0, 0, 0; 0, -1, 0, 0; 0, -1, 0, 0; 1, 0, 0, 0] := by
    rw [b10]; exact toBlk_quads _ _ _ _ _ _ _ _ _ _ _ _ _ _ _ _
  have B11 : ((blockAt S x 1 1).toBlk : Blk ℝ 4) = !![2, 0, 0, -1; 0, 2, 1, 0; 0, 1, 0, 0; -1, 0, 0, 0] := by
    rw [b11]; exact toBlk_quads _ _ _ _ _ _ _ _ _ _ _ _ _ _ _ _
  rcases hk' with rfl | rfl
  · have : B = (!![2, 0, 0, 0; 0, 2, 0, 0; 0, 0, -1, 0; 0, 0, 0, -1] : Blk ℝ 4) := by
      refine blk_ext fun a b c d => ?_
      have := hB (fun _ => ![a, b, c, d]) (fun r hr => absurd hr (by omega))
      rw [Finset.sum_range_one, hm] at this
      rw [← B00]
      exact this.symm
    rw [this]
    exact pivot0 flag
  · have : B = (!![3 / 2, 0, 0, -1 / 2; 0, 3 / 2, 1 / 2, 0; 0, 1 / 2, -1 / 2, 0; -1 / 2, 0, 0, -1 / 2] : Blk ℝ 4) := by
      refine blk_ext fun a b c d => ?_
      have := hB (fun i => if i = 0 then ![(a - d) / 2, (b + c) / 2, 0, 0] else ![a, b, c, d]) (fun r hr => ?_)
      · rw [Finset.sum_range_succ, Finset.sum_range_one, hm, hm] at this
        refine this.symm.trans ?_
        show ((blockAt S x 1 0).toBlk : Blk ℝ 4).mulVec ![(a - d) / 2, (b + c) / 2, 0, 0] + ((blockAt S x 1 1).toBlk : Blk ℝ 4).mulVec ![a, b, c, d] = _
        rw [B10, B11]
        exact pivotRow1 a b c d
      · have : r = 0 := by omega
        subst this
        rw [Finset.sum_range_succ, Finset.sum_range_one, hm, hm]
        show ((blockAt S x 0 0).toBlk : Blk ℝ 4).mulVec ![(a - d) / 2, (b + c) / 2, 0, 0] + ((blockAt S x 0 1).toBlk : Blk ℝ 4).mulVec ![a, b, c, d] = _
        rw [B00, B01]
        exact pivotRow0 a b c d
    rw [this]
    exact pivot1 flag

/-! ### An iteration and a calculation -/

/-- An iteration from voltages of one is accepted, whatever the measured values are. -/
theorem exStep {S : YBus.Structure} (hS : build exTopo2 = some S) (a b : ℝ) (p : ℂ) {mem : Memory .sym} (hold : mem.sys.gain.length = S.colIndicesLu.length)
    (hlen : mem.perms.length = 2) {st : State .sym} (hst : st.x = flat) :
    ∃ st' dev, step (exSeNet S) (exM a b p) false mem st = .ok (st', dev) := by
  have hN := exSeNet_valid hS
  have h := prepared hN (exM a b p) st mem.sys hold
  obtain ⟨f, hf⟩ := exAccepted hS a b p hst h h.len mem.perms hlen
  have hb : (rhsList (exSeNet S).T.nBus (prepare (exSeNet S) (exM a b p) st mem.sys)).length = (exSeNet S).T.nBus := by simp [rhsList]
  obtain ⟨_, ⟨y, hy, _⟩, _⟩ := solve_unperturbed (structure_valid hN.topo hN.fill hN.structure_) false _ _ mem.perms (gain_holds hN h.len) hlen f hf
    (Or.inr rfl) _ _ hb hb
  have hflag : f.perturbed = false :=
    prefactorize_flag (structure_valid hN.topo hN.fill hN.structure_) _ _ mem.perms (gain_holds hN h.len).zero (gain_holds hN h.len).rep hlen f hf
  have hfs : factorizeAndSolve (luPattern (exSeNet S).S) false ((prepare (exSeNet S) (exM a b p) st mem.sys).gain.map Block.toBlk) mem.perms
      (rhsList (exSeNet S).T.nBus (prepare (exSeNet S) (exM a b p) st mem.sys)) = .ok y := by
    unfold factorizeAndSolve
    rw [show prefactorize (luPattern (exSeNet S).S) false _ _ = .ok f from hf]
    simp only [bind, Except.bind]
    rw [hflag]
    exact hy
  unfold step solve
  rw [hfs]
  exact ⟨_, _, rfl⟩

theorem ex_phiOk (a b : ℝ) (p : ℂ) : PhiOk (exM a b p) (fun _ => 0) := start_phiOk exTopo2 (fun _ => 0) (exM a b p)

/-- **C55 on the example.** The hypotheses of the theorem about iterations hold for all measured values, so that the change of the voltages is
the Gauss-Newton step of the readings. -/
example (a b : ℝ) (p : ℂ) : ∃ (S : YBus.Structure) (mem : Memory .sym) (st' : State .sym) (dev : ℝ) (d : Nat → Polar .sym), build exTopo2 = some S ∧
    step (exSeNet S) (exM a b p) false mem ⟨flat, fun _ => 0⟩ = .ok (st', dev) ∧
    IsGaussNewtonStep 2 (readings exTopo2 exParam2 0 (exM a b p)) flat d ∧
    ∀ b q, (st'.x b).theta q = (flat b).theta q + (d b).theta q ∧ (st'.x b).v q = (flat b).v q + (d b).v q := by
  obtain ⟨S, hS, _⟩ := structure_correct exTopo2_valid
  have hN := exSeNet_valid hS
  let mem : Memory .sym := ⟨⟨List.replicate S.colIndicesLu.length .zero, fun _ => ⟨0, 0⟩⟩, List.replicate 2 ⟨1, 1⟩⟩
  have hold : mem.sys.gain.length = (exSeNet S).S.colIndicesLu.length := List.length_replicate
  have hlen : mem.perms.length = (exSeNet S).T.nBus := List.length_replicate
  obtain ⟨st', dev, h⟩ := exStep hS a b p (mem := mem) hold hlen (st := ⟨flat, fun _ => 0⟩) rfl
  obtain ⟨d, z, h1, h2, _, h4, _⟩ := step_gaussNewton_partial hN (exM_variances a b p) (sym_uncoupled _ _) hold hlen (flat_nonzero _) (ex_phiOk a b p)
    (Or.inl rfl) h
  have hr : readings (exSeNet S).T (exSeNet S).y.param (exSeNet S).slack (withoutHalfOpen (exSeNet S).T (exM a b p)) =
      readings exTopo2 exParam2 0 (exM a b p) := by
    rw [exSeNet_param]
    exact readings_closed _ _ (exM_closed a b p)
  rw [hr] at h1
  have hz : z = 0 := h2 ⟨0, by show 0 < 2; omega, _, _, rfl⟩
  refine ⟨S, mem, st', dev, d, hS, h, h1, fun b q => ?_⟩
  obtain ⟨e1, e2⟩ := h4 b q
  rw [hz, sub_zero] at e1
  exact ⟨e1, e2⟩

/-- What the check sees of the measurements. -/
def exFlags : Observability.Meas where
  voltage b := true
  angle b := true
  injection b := b == 1
  fromPower k := k == 0
  toPower _ := false
  fromCurrent _ := false
  toCurrent _ := false
  globalAngleCurrent := false

theorem exFlags_eq (a b : ℝ) (p : ℂ) : flags exTopo2 (exM a b p) = exFlags := by
  unfold flags exFlags
  congr 1
  · funext i
    by_cases hb : i = 0 <;> simp [exM, hb]
  · funext i
    by_cases hb : i = 0 <;> simp [exM, hb, isPhasor]
  · funext i
    by_cases hb : i = 1 <;> simp [exM, hb]
  · funext k
    by_cases hk : k = 0 <;> simp [exM, hk]

/-- The check finds the example observable. -/
theorem exObservable (a b : ℝ) (p : ℂ) :
    ((build exTopo2).map fun S => Observability.check exTopo2 true S (flags exTopo2 (exM a b p))) = some (.returns true false) := by
  rw [exFlags_eq]
  decide +kernel

theorem ex_start : (start exTopo2 (fun _ => 0) (exM 1 1 0)).x = flat := by
  funext i
  have h : (start exTopo2 (fun _ => 0) (exM 1 1 0)).x i = ⟨fun p => Complex.arg (StateEst.one ((1 : ℝ) : ℂ) p), fun p => ‖StateEst.one ((1 : ℝ) : ℂ) p‖⟩ := by
    by_cases hi : i = 0 <;> simp [start, exM, hi, startAngle, startMagnitude, magnitudeOf]
  rw [h]
  simp [flat, StateEst.one]

theorem ex_exact : ∀ R ∈ readings exTopo2 exParam2 0 (exM 1 1 0), R.predict flat = R.target := by
  have e : readings exTopo2 exParam2 0 (exM 1 1 0) =
      [⟨fun x => (x 0).v (0 : Fin 1), ‖((1 : ℝ) : ℂ)‖, 1⟩, ⟨fun x => (x 0).theta (0 : Fin 1), Complex.arg ((1 : ℝ) : ℂ), 1⟩,
        ⟨fun x => (x 1).v (0 : Fin 1), ‖((1 : ℝ) : ℂ)‖, 1⟩, ⟨fun x => (x 1).theta (0 : Fin 1), Complex.arg ((1 : ℝ) : ℂ), 1⟩,
        ⟨fun x => (exPower x (0 : Fin 1)).re, (0 : ℂ).re, 1⟩, ⟨fun x => (exPower x (0 : Fin 1)).im, (0 : ℂ).im, 1⟩,
        ⟨fun x => (flowPower x (some 1) (nodalCurrent exTopo2 exParam2 (phasors x) 1) (0 : Fin 1)).re, (0 : ℂ).re, 0⟩,
        ⟨fun x => (flowPower x (some 1) (nodalCurrent exTopo2 exParam2 (phasors x) 1) (0 : Fin 1)).im, (0 : ℂ).im, 0⟩] := by
    rfl
  have p1 : ∀ b, phasors flat b = StateEst.one 1 := flat_phasor
  have hp : exPower flat (0 : Fin 1) = 0 := by
    unfold exPower
    rw [p1, p1, mulVec_one, mulVec_one]
    have h : ((exParam2.ff 0) (0 : Fin 1) (0 : Fin 1) * 1 + (exParam2.ft 0) (0 : Fin 1) (0 : Fin 1) * 1 : ℂ) = 0 := by simp [exParam2]
    show (1 : ℂ) * star ((exParam2.ff 0) (0 : Fin 1) (0 : Fin 1) * 1 + (exParam2.ft 0) (0 : Fin 1) (0 : Fin 1) * 1 : ℂ) = 0
    rw [h]
    simp
  have hn : flowPower flat (some 1) (nodalCurrent exTopo2 exParam2 (phasors flat) 1) (0 : Fin 1) = 0 := by
    have h : nodalCurrent exTopo2 exParam2 (phasors flat) 1 = StateEst.one 0 := by
      unfold nodalCurrent
      show ∑ c ∈ Finset.range 2, _ = _
      rw [Finset.sum_range_succ, Finset.sum_range_one, p1, p1, mulVec_one, mulVec_one, exNodal.2.2.1, exNodal.2.2.2]
      funext q
      show (-1 * 1 + 1 * 1 : ℂ) = 0
      norm_num
    rw [h]
    show _ * star (0 : ℂ) = 0
    simp
  rw [e]
  intro R hR
  simp only [List.mem_cons, List.not_mem_nil, or_false] at hR
  rcases hR with rfl | rfl | rfl | rfl | rfl | rfl | rfl | rfl
  · simp [flat]
  · simp [flat]
  · simp [flat]
  · simp [flat]
  · exact congrArg Complex.re hp
  · exact congrArg Complex.im hp
  · exact congrArg Complex.re hn
  · exact congrArg Complex.im hn

/-- **C55 on the example.** For exact measurements the estimation returns the voltages that they come from. -/
theorem exRun (tol : ℝ) (htol : 0 ≤ tol) (maxIter : Nat) : ∃ (S : YBus.Structure) (mem : Nat → Memory .sym) (st' : State .sym), build exTopo2 = some S ∧
    (∀ k, (mem k).sys.gain.length = S.colIndicesLu.length ∧ (mem k).perms.length = 2) ∧
    run (exSeNet S) (exM 1 1 0) (fun _ => 0) tol (maxIter + 1) mem = .ok st' ∧ ∀ b, b < 2 → st'.x b = flat b := by
  obtain ⟨S, hS, _⟩ := structure_correct exTopo2_valid
  have hN := exSeNet_valid hS
  let mem : Memory .sym := ⟨⟨List.replicate S.colIndicesLu.length .zero, fun _ => ⟨0, 0⟩⟩, List.replicate 2 ⟨1, 1⟩⟩
  have hold : mem.sys.gain.length = (exSeNet S).S.colIndicesLu.length := List.length_replicate
  have hlen : mem.perms.length = (exSeNet S).T.nBus := List.length_replicate
  have hst : (start (exSeNet S).T (fun _ => 0) (exM 1 1 0)).x = flat := ex_start
  obtain ⟨st', dev, h⟩ := exStep hS 1 1 0 (mem := mem) hold hlen hst
  have hx : NonZero (exSeNet S).T.nBus (start (exSeNet S).T (fun _ => 0) (exM 1 1 0)).x := by rw [hst]; exact flat_nonzero _
  obtain ⟨z, hz, hfix⟩ := exact_readings_fixed_partial hN (exM_variances 1 1 0) (sym_uncoupled _ _) hold hlen hx (ex_phiOk 1 1 0) (Or.inl rfl) h
    (by rw [hst, exSeNet_param]; exact ex_exact)
  have hz0 : z = 0 := hz ⟨0, by show 0 < 2; omega, _, _, rfl⟩
  have hback : ∀ b, b < 2 → st'.x b = flat b := fun b hb => by
    have e := hfix b hb
    rw [hst, hz0] at e
    cases hs : st'.x b with
    | mk th v =>
      rw [hs] at e
      show (⟨th, v⟩ : Polar .sym) = ⟨fun _ => 0, fun _ => 1⟩
      congr 1
      · funext q; exact (e q).1.trans (sub_zero _)
      · funext q; exact (e q).2
  obtain ⟨d, a, _, _, _, _, _, hdev⟩ := step_gaussNewton_partial hN (exM_variances 1 1 0) (sym_uncoupled _ _) hold hlen hx (ex_phiOk 1 1 0) (Or.inl rfl) h
  have hd : dev ≤ tol := (hdev tol htol).mpr fun b hb q => by
    unfold phasors
    rw [hback b hb, hst, sub_self, norm_zero]
    exact htol
  refine ⟨S, fun _ => mem, st', hS, fun _ => ⟨hold, hlen⟩, ?_, hback⟩
  have ho := exObservable 1 1 0
  rw [hS] at ho
  injection ho with ho
  unfold run
  rw [show Observability.check (exSeNet S).T (exSeNet S).radial (exSeNet S).S (flags (exSeNet S).T (exM 1 1 0)) = .returns true false from ho]
  show loop (exSeNet S) (exM 1 1 0) false (fun _ => mem) tol (maxIter + 1) _ = _
  unfold loop
  rw [h]
  dsimp only
  rw [if_neg (not_lt.mpr hd)]

end PGM.NewtonSe
