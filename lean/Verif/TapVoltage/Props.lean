import Verif.TapVoltage.Lemmas

/-!
# C61: a tap regulator compares the documented voltage with its band
-/

namespace PGM.TapVoltage

open PGM.Container PGM.Input PGM.Update PGM.Topology PGM.PowerFlow PGM.Output PGM.TapOpt

variable {K : Type} {σ : Symm}

/-- The powers that a transformer reports at a side: 0 is the from side, 1 the to side. -/
def sideP (r : Output.BranchOut σ) (side : Int) : RV σ ℝ := if side = 0 then r.pFrom else r.pTo

/-- The reactive powers. -/
def sideQ (r : Output.BranchOut σ) (side : Int) : RV σ ℝ := if side = 0 then r.qFrom else r.qTo

/-- The solver's results for the controlled node and the controlled side of a transformer belong together. -/
def Consistent2 (O : Objects) (sol : List (Sol σ)) (node branch : Nat) (side : Int) : Prop :=
  ∀ m m' u b, O.node node = some m → O.branch branch = some m' → at2 sol Sol.u m = some u → at2 sol Sol.branch m' = some b →
    if side = 0 then IsPower u b.sF b.iF else IsPower u b.sT b.iT

/-- The same for a side of a three-winding transformer. -/
def Consistent3 (O : Objects) (sol : List (Sol σ)) (node branch : Nat) (side : Fin 3) : Prop :=
  ∀ m m' u b, O.node node = some m → O.branch3 branch = some m' → at2 sol Sol.u m = some u → at2 sol Sol.branch (m'.1, m'.2 side) = some b →
    IsPower u b.sF b.iF

/-- The situation of a regulated transformer: `e` is transformer number `k` of the input, `en` is the node at the controlled side and number `n` of the input, `rn` and `rt` are their records,
both are part of the calculation, the results belong together and the voltage is not zero in any phase. -/
structure Case2 (D : CompType → List (Elem K)) (c : Container (Comp K)) (A : Attr) (O : Objects) (sol : List (Sol σ)) (k n : Nat) (e en : Elem K) (side : Int)
    (rn : NodeOut σ) (rt : Output.BranchOut σ) : Prop where
  built : build D = .ok c
  fits : Fits O sol
  trafo : (D .transformer)[k]? = some e
  node : (D .node)[n]? = some en
  side01 : side = 0 ∨ side = 1
  atSide : en.id = if side = 0 then e.n1 else e.n2
  nodeRecord : (nodeRecords A c O sol)[n]? = some (some rn)
  trafoRecord : (branchRecords .transformer A c O sol)[k]? = some (some rt)
  nodeOn : rn.energized = true
  trafoOn : rt.energized = true
  consistent : Consistent2 O sol n (position D .transformer k) side
  rated : 0 < A.uRated en.id
  voltage : ∀ j, rn.u j ≠ 0

/-- The same for a three-winding transformer. -/
structure Case3 (D : CompType → List (Elem K)) (c : Container (Comp K)) (A : Attr) (O : Objects) (sol : List (Sol σ)) (k n : Nat) (e en : Elem K) (side : Fin 3)
    (rn : NodeOut σ) (rt : Branch3Out σ) : Prop where
  built : build D = .ok c
  fits : Fits O sol
  trafo : (D .threeWindingTransformer)[k]? = some e
  node : (D .node)[n]? = some en
  atSide : en.id = (![e.n1, e.n2, e.n3] : Fin 3 → Int) side
  nodeRecord : (nodeRecords A c O sol)[n]? = some (some rn)
  trafoRecord : (branch3Records A c O sol)[k]? = some (some rt)
  nodeOn : rn.energized = true
  trafoOn : rt.energized = true
  consistent : Consistent3 O sol n k side
  rated : 0 < A.uRated en.id
  voltage : ∀ j, rn.u j ≠ 0

theorem compare2_eq {D : CompType → List (Elem K)} {c : Container (Comp K)} {A : Attr} {O : Objects} {sol : List (Sol σ)} {k n : Nat} {e en : Elem K} {side : Int}
    {rn : NodeOut σ} {rt : Output.BranchOut σ} (H : Case2 D c A O sol k n e en side rn rt) (d : RegInput) (us : List RegUpdate) (hb : 0 ≤ bandWidth d us) :
    ∃ cmp v, compare2 A c O sol e side d us = some cmp ∧
      IsControlVoltage σ rn.u (sideP rt side) (sideQ rt side) (share σ * dropR d us) (share σ * dropX d us) v ∧
      Verdict (setPoint d us - bandWidth d us / 2) (setPoint d us + bandWidth d us / 2) v cmp := by
  obtain ⟨h, hf, hk, hn, hside, hen, hrn, hrt, hrnE, hrtE, hs, hR, hu⟩ := H
  obtain ⟨r, h1, h2, h3⟩ := (node_records h A O sol hf).2 n en hn
  obtain ⟨r', h1', h2', h3'⟩ := (branch_records h A O sol hf .transformer (by simp [branchTypes])).2 k e hk
  rw [h1] at hrn
  rw [h1'] at hrt
  obtain rfl := Option.some.inj (Option.some.inj hrn)
  obtain rfl := Option.some.inj (Option.some.inj hrt)
  rcases h3 with ⟨_, h3, _⟩ | ⟨m, x, u, hm, hx, hxu, _, hvals⟩
  · rw [h3] at hrnE; cases hrnE
  rcases h3' with ⟨_, h3', _⟩ | ⟨m', x', b, hm', hx', hxb, _, hvals'⟩
  · rw [h3'] at hrtE; cases hrtE
  have hatu : at2 sol Sol.u m = some u := by simp [at2, hx, hxu]
  have hatb : at2 sol Sol.branch m' = some b := by simp [at2, hx', hxb]
  have hpow := hs m m' u b hm hm' hatu hatb
  have hseq : seqById .branch c e.id = some (position D .transformer k) := seq_position h hk
  have hreg : ∀ {β : Type} (f : Comp K → Option β), registered .branch c f (position D .transformer k) = f ⟨.transformer, e⟩ := by
    intro β f
    obtain ⟨o, _, hs2, _, _, hs5⟩ := seq_ok h hk
    rw [show baseOf .transformer = Cls.branch from rfl] at hs2
    rw [hseq] at hs2
    have := hs5 f
    rw [show baseOf .transformer = Cls.branch from rfl] at this
    rw [Option.some.inj hs2]
    exact this
  have hem : e ∈ D .transformer := List.mem_of_getElem? hk
  obtain ⟨k1, e1, hk1, he1⟩ := node_of_ref h hem (id := e.n1) (by simp [refs])
  obtain ⟨k2, e2, hk2, he2⟩ := node_of_ref h hem (id := e.n2) (by simp [refs])
  have hs1 : seqById .node c e.n1 = some k1 := by rw [← he1]; exact node_seq h hk1
  have hs2 : seqById .node c e.n2 = some k2 := by rw [← he2]; exact node_seq h hk2
  have hsn : seqById .node c en.id = some n := node_seq h hn
  have hU : ∀ j, r.u j = uScale σ * A.uRated en.id * ‖u j‖ := by
    intro j
    rw [(hvals j).2.2]
    cases σ <;> simp only [uScale] <;> ring
  have hu0 : ∀ j, u j ≠ 0 := by
    intro j h0
    exact hu j (by rw [hU, h0]; simp)
  obtain ⟨g1, g2, g3, g4, g5⟩ := regulator_eq A (terminal2 e side) d us
  have hterm : terminal2 e side = en.id := by rw [hen]; rfl
  rw [hterm] at g1 g2 g3 g4 g5
  rcases hside with rfl | rfl
  · simp only [if_true] at hen hpow
    have hnn : n = k1 := by rw [hen, hs1] at hsn; exact (Option.some.inj hsn).symm
    subst hnn
    refine ⟨compareState (regParam σ (regulator A en.id d us)) u b.iF, _, ?_, control_eq hR _ g1 u b.sF b.iF hpow hu0 r.u _ _ hU
      (fun j => (hvals' j).1) (fun j => (hvals' j).2.1) |> fun h => by rwa [g4, g5] at h, ?_⟩
    · simp [compare2, controlState2, hseq, hreg, branchNodes, hs1, hs2, sideNode2, nodeVoltage, hm, hatu, hm', hatb, sideCurrent2, hterm]
    · have := verdict_scale hR (setPoint d us) (bandWidth d us) (meanVal (compensated (regParam σ (regulator A en.id d us)) u b.iF)) hb
      simpa only [compareState, regParam, g1, g2, g3] using this
  · simp only [one_ne_zero, if_false] at hen hpow
    have hnn : n = k2 := by rw [hen, hs2] at hsn; exact (Option.some.inj hsn).symm
    subst hnn
    refine ⟨compareState (regParam σ (regulator A en.id d us)) u b.iT, _, ?_, control_eq hR _ g1 u b.sT b.iT hpow hu0 r.u _ _ hU
      (fun j => (hvals' j).2.2.1) (fun j => (hvals' j).2.2.2.1) |> fun h => by rwa [g4, g5] at h, ?_⟩
    · simp [compare2, controlState2, hseq, hreg, branchNodes, hs1, hs2, sideNode2, nodeVoltage, hm, hatu, hm', hatb, sideCurrent2, hterm]
    · have := verdict_scale hR (setPoint d us) (bandWidth d us) (meanVal (compensated (regParam σ (regulator A en.id d us)) u b.iT)) hb
      simpa only [compareState, regParam, g1, g2, g3] using this

theorem compare3_eq {D : CompType → List (Elem K)} {c : Container (Comp K)} {A : Attr} {O : Objects} {sol : List (Sol σ)} {k n : Nat} {e en : Elem K} {side : Fin 3}
    {rn : NodeOut σ} {rt : Branch3Out σ} (H : Case3 D c A O sol k n e en side rn rt) (d : RegInput) (us : List RegUpdate) (hb : 0 ≤ bandWidth d us) :
    ∃ cmp v, compare3 A c O sol e (side : Nat) d us = some cmp ∧
      IsControlVoltage σ rn.u (rt.p side) (rt.q side) (share σ * dropR d us) (share σ * dropX d us) v ∧
      Verdict (setPoint d us - bandWidth d us / 2) (setPoint d us + bandWidth d us / 2) v cmp := by
  obtain ⟨h, hf, hk, hn, hen, hrn, hrt, hrnE, hrtE, hs, hR, hu⟩ := H
  obtain ⟨r, h1, h2, h3⟩ := (node_records h A O sol hf).2 n en hn
  obtain ⟨r', h1', h2', h3'⟩ := (branch3_records h A O sol hf).2 k e hk
  rw [h1] at hrn
  rw [h1'] at hrt
  obtain rfl := Option.some.inj (Option.some.inj hrn)
  obtain rfl := Option.some.inj (Option.some.inj hrt)
  rcases h3 with ⟨_, h3, _⟩ | ⟨m, x, u, hm, hx, hxu, _, hvals⟩
  · rw [h3] at hrnE; cases hrnE
  rcases h3' with ⟨_, h3', _⟩ | ⟨m', x', b, hm', hx', hxb, _, hvals'⟩
  · rw [h3'] at hrtE; cases hrtE
  have hatu : at2 sol Sol.u m = some u := by simp [at2, hx, hxu]
  have hatb : at2 sol Sol.branch (m'.1, m'.2 side) = some (b side) := by simp [at2, hx', hxb]
  have hpow := hs m m' u (b side) hm hm' hatu hatb
  have hpos : position D .threeWindingTransformer k = k := by simp [position, family]
  have hseq : seqById .branch3 c e.id = some k := by have := seq_position h hk; rwa [hpos] at this
  have hreg : ∀ {β : Type} (f : Comp K → Option β), registered .branch3 c f k = f ⟨.threeWindingTransformer, e⟩ := by
    intro β f
    obtain ⟨o, _, hs2, _, _, hs5⟩ := seq_ok h hk
    rw [show baseOf .threeWindingTransformer = Cls.branch3 from rfl, hseq] at hs2
    have := hs5 f
    rw [show baseOf .threeWindingTransformer = Cls.branch3 from rfl] at this
    rw [← Option.some.inj hs2] at this
    exact this
  have hsn : seqById .node c (node3 (⟨.threeWindingTransformer, e⟩ : Comp K) side) = some n := by
    have : node3 (⟨.threeWindingTransformer, e⟩ : Comp K) side = en.id := by rw [hen]; rfl
    rw [this]
    exact node_seq h hn
  have hU : ∀ j, r.u j = uScale σ * A.uRated en.id * ‖u j‖ := by
    intro j
    rw [(hvals j).2.2]
    cases σ <;> simp only [uScale] <;> ring
  have hu0 : ∀ j, u j ≠ 0 := by
    intro j h0
    exact hu j (by rw [hU, h0]; simp)
  obtain ⟨g1, g2, g3, g4, g5⟩ := regulator_eq A en.id d us
  have hterm : node3 (⟨.threeWindingTransformer, e⟩ : Comp K) side = en.id := by rw [hen]; rfl
  have hl : side3 (side : Nat) = some side := by fin_cases side <;> simp [side3]
  refine ⟨compareState (regParam σ (regulator A en.id d us)) u (b side).iF, _, ?_, control_eq hR _ g1 u (b side).sF (b side).iF hpow hu0 r.u _ _ hU
    (fun j => (hvals' side j).1) (fun j => (hvals' side j).2.1) |> fun h => by rwa [g4, g5] at h, ?_⟩
  · simp [compare3, controlState3, hseq, hl, hreg, branch3Node, node_seq h hn, nodeVoltage, hm, hatu, hm', hatb, hterm]
  · have := verdict_scale hR (setPoint d us) (bandWidth d us) (meanVal (compensated (regParam σ (regulator A en.id d us)) u (b side).iF)) hb
    simpa only [compareState, regParam, g1, g2, g3] using this

/-! ## The property -/

/-- C61, symmetric calculations, transformers. Whatever the history of updates of the regulator, the outcome of the comparison is that of the documented voltage, in volt, with the band around the set point. -/
theorem control_symmetric {D : CompType → List (Elem K)} {c : Container (Comp K)} {A : Attr} {O : Objects} {sol : List (Sol .sym)} {k n : Nat} {e en : Elem K} {side : Int}
    {rn : NodeOut .sym} {rt : Output.BranchOut .sym} (H : Case2 D c A O sol k n e en side rn rt) (d : RegInput) (us : List RegUpdate) (hb : 0 ≤ bandWidth d us) :
    ∃ cmp v, compare2 A c O sol e side d us = some cmp ∧
      IsControlVoltage .sym rn.u (sideP rt side) (sideQ rt side) (dropR d us) (dropX d us) v ∧
      Verdict (setPoint d us - bandWidth d us / 2) (setPoint d us + bandWidth d us / 2) v cmp := by
  simpa only [share, one_mul] using compare2_eq H d us hb

/-- C61, symmetric calculations, three-winding transformers. -/
theorem control3_symmetric {D : CompType → List (Elem K)} {c : Container (Comp K)} {A : Attr} {O : Objects} {sol : List (Sol .sym)} {k n : Nat} {e en : Elem K} {side : Fin 3}
    {rn : NodeOut .sym} {rt : Branch3Out .sym} (H : Case3 D c A O sol k n e en side rn rt) (d : RegInput) (us : List RegUpdate) (hb : 0 ≤ bandWidth d us) :
    ∃ cmp v, compare3 A c O sol e (side : Nat) d us = some cmp ∧
      IsControlVoltage .sym rn.u (rt.p side) (rt.q side) (dropR d us) (dropX d us) v ∧
      Verdict (setPoint d us - bandWidth d us / 2) (setPoint d us + bandWidth d us / 2) v cmp := by
  simpa only [share, one_mul] using compare3_eq H d us hb

/-- C61, asymmetric calculations without line drop compensation. Missing: the compensation, see `control_asymmetric_wrong`. -/
theorem control_asymmetric_partial {D : CompType → List (Elem K)} {c : Container (Comp K)} {A : Attr} {O : Objects} {sol : List (Sol .asym)} {k n : Nat} {e en : Elem K}
    {side : Int} {rn : NodeOut .asym} {rt : Output.BranchOut .asym} (H : Case2 D c A O sol k n e en side rn rt) (d : RegInput) (us : List RegUpdate)
    (hb : 0 ≤ bandWidth d us) (hr : dropR d us = 0) (hx : dropX d us = 0) :
    ∃ cmp v, compare2 A c O sol e side d us = some cmp ∧
      IsControlVoltage .asym rn.u (sideP rt side) (sideQ rt side) (dropR d us) (dropX d us) v ∧
      Verdict (setPoint d us - bandWidth d us / 2) (setPoint d us + bandWidth d us / 2) v cmp := by
  simpa only [hr, hx, mul_zero] using compare2_eq H d us hb

/-- C61, the same for three-winding transformers. -/
theorem control3_asymmetric_partial {D : CompType → List (Elem K)} {c : Container (Comp K)} {A : Attr} {O : Objects} {sol : List (Sol .asym)} {k n : Nat} {e en : Elem K}
    {side : Fin 3} {rn : NodeOut .asym} {rt : Branch3Out .asym} (H : Case3 D c A O sol k n e en side rn rt) (d : RegInput) (us : List RegUpdate)
    (hb : 0 ≤ bandWidth d us) (hr : dropR d us = 0) (hx : dropX d us = 0) :
    ∃ cmp v, compare3 A c O sol e (side : Nat) d us = some cmp ∧
      IsControlVoltage .asym rn.u (rt.p side) (rt.q side) (dropR d us) (dropX d us) v ∧
      Verdict (setPoint d us - bandWidth d us / 2) (setPoint d us + bandWidth d us / 2) v cmp := by
  simpa only [hr, hx, mul_zero] using compare3_eq H d us hb

/-- What asymmetric calculations do: they compensate with a third of the impedance. -/
theorem control_asymmetric_third {D : CompType → List (Elem K)} {c : Container (Comp K)} {A : Attr} {O : Objects} {sol : List (Sol .asym)} {k n : Nat} {e en : Elem K}
    {side : Int} {rn : NodeOut .asym} {rt : Output.BranchOut .asym} (H : Case2 D c A O sol k n e en side rn rt) (d : RegInput) (us : List RegUpdate)
    (hb : 0 ≤ bandWidth d us) :
    ∃ cmp v, compare2 A c O sol e side d us = some cmp ∧
      IsControlVoltage .asym rn.u (sideP rt side) (sideQ rt side) (dropR d us / 3) (dropX d us / 3) v ∧
      Verdict (setPoint d us - bandWidth d us / 2) (setPoint d us + bandWidth d us / 2) v cmp := by
  simpa only [share, one_div, inv_mul_eq_div] using compare2_eq H d us hb

/-- The controlled voltage is determined by what is reported. -/
theorem control_unique {u p q : RV σ ℝ} {r x v v' : ℝ} (hu : ∀ j, phaseVoltage σ u j ≠ 0) (h : IsControlVoltage σ u p q r x v)
    (h' : IsControlVoltage σ u p q r x v') : v = v' := by
  obtain ⟨I, h1, h2⟩ := h
  obtain ⟨I', h1', h2'⟩ := h'
  have : I = I' := by
    funext j
    have hc : (phaseVoltage σ u j : ℂ) ≠ 0 := by exact_mod_cast hu j
    exact star_injective (mul_left_cancel₀ hc ((h1 j).trans (h1' j).symm))
  rw [h2, h2', this]

/-- Without compensation, the controlled voltage of a symmetric calculation is the voltage of the node. -/
theorem control_plain {u p q : RV .sym ℝ} (hu : ∀ j, 0 < u j) (v : ℝ) : IsControlVoltage .sym u p q 0 0 v ↔ v = u (0 : Fin 1) := by
  have h3 := sqrt3_pos
  have hsum : ∀ f : Fin Symm.sym.phases → ℝ, ∑ j, f j = f (0 : Fin 1) := fun f => Fin.sum_univ_one f
  have key : ∀ I : Fin Symm.sym.phases → ℂ, √3 * ((∑ j, ‖(phaseVoltage .sym u j : ℂ) + (((0 : ℝ) : ℂ) + ((0 : ℝ) : ℂ) * Complex.I) * I j‖) / (Symm.sym.phases : ℕ))
      = u (0 : Fin 1) := by
    intro I
    have h0 : 0 < u (0 : Fin 1) := hu _
    rw [hsum]
    simp only [phaseVoltage, Complex.ofReal_zero, zero_mul, add_zero, Complex.norm_real, Symm.phases, Nat.cast_one, div_one]
    rw [Real.norm_of_nonneg (by positivity)]
    field_simp
  constructor
  · rintro ⟨I, _, h2⟩
    rw [h2]
    exact key I
  · intro h
    refine ⟨fun j => star (phasePower .sym p q j / phaseVoltage .sym u j), ?_, by rw [h]; exact (key _).symm⟩
    intro j
    have : (phaseVoltage .sym u j : ℂ) ≠ 0 := by
      have : 0 < u j / √3 := div_pos (hu j) h3
      exact_mod_cast this.ne'
    rw [star_star, mul_div_cancel₀ _ this]

end PGM.TapVoltage
