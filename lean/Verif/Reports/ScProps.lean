import Verif.Reports.Props

/-!
# C62: the records of a short-circuit calculation

In each theorem, the result has one record for each component in the order of the input, and record `k` belongs to component `k`. A component without a place in the solved grid is reported as not
energised with zeros; otherwise the record holds the entry of the result at the place of the component, as magnitude and angle in volt and ampere for the three phases.
-/

namespace PGM.Reports

open PGM.Container PGM.Input PGM.Update PGM.Topology PGM.PowerFlow PGM.Output

variable {K : Type} {σ : Symm}

/-! ## Lemmas -/

theorem scAt_of {β : Type} {sol : List (ScSol σ)} {member : ScSol σ → List β} {m : Nat × Nat} {x : ScSol σ} (hx : sol[m.1]? = some x) (hl : m.2 < (member x).length) :
    scAt sol member m = some (member x)[m.2] := by
  simp [scAt, hx, hl]

theorem flipped (b d : ℝ) (hb : 0 ≤ b) (hd : d = 1 ∨ d = -1) (z : ℂ) : IsPolar (b * ‖z‖) (z * (d : ℂ)).arg (b * (d * z)) := by
  have h := polar b hb (z * (d : ℂ))
  have hn : ‖z * (d : ℂ)‖ = ‖z‖ := by rcases hd with rfl | rfl <;> simp
  rw [hn] at h
  rwa [mul_comm (d : ℂ) z]

/-! ## Theorems -/

/-- C62, nodes of a short-circuit calculation: the voltages are line-to-ground voltages. -/
theorem sc_nodes {D : CompType → List (Elem K)} {c : Container (Comp K)} (h : build D = .ok c) (A : Attr) (O : Objects) (fault : Nat → Option (Nat × Nat)) (sol : List (ScSol σ))
    (hf : ScFits O fault sol) :
    (scNodes A c O sol).length = (D .node).length ∧ ∀ (k : Nat) (e : Elem K), (D .node)[k]? = some e → 0 < A.uRated e.id →
      ∃ r, (scNodes A c O sol)[k]? = some (some r) ∧ r.id = e.id ∧
        (O.node k = none → r.energized = false ∧ r.uPu = 0 ∧ r.u = 0 ∧ r.uAngle = 0) ∧
        ∀ m, O.node k = some m → r.energized = true ∧ ∃ x u, sol[m.1]? = some x ∧ x.u[m.2]? = some u ∧
          ∀ j, IsPolar (r.uPu j) (r.uAngle j) (phasors u j) ∧ IsPolar (r.u j) (r.uAngle j) ((A.uRated e.id / √3 : ℝ) * phasors u j) := by
  refine ⟨produce_length h _ _ _, ?_⟩
  intro k e hk hu
  have h1 : (scNodes A c O sol)[k]? = some (scNodeResult A O sol ⟨.node, e⟩ k) := by
    unfold scNodes
    rw [produce_eq h hk (node_seq h hk)]
    rfl
  rw [h1]
  cases hm : O.node k with
  | none => exact ⟨⟨e.id, false, 0, 0, 0⟩, by simp [scNodeResult, hm], rfl, fun _ => ⟨rfl, rfl, rfl, rfl⟩, by intro m h0; cases h0⟩
  | some m =>
    obtain ⟨x, hx, hl⟩ := hf.node _ m hm
    refine ⟨scNode A ⟨.node, e⟩ (x.u[m.2]'hl), by simp [scNodeResult, hm, scAt_of hx hl], rfl, (by intro h0; cases h0), ?_⟩
    intro m' hm'
    cases hm'
    refine ⟨rfl, x, _, hx, List.getElem?_eq_getElem hl, ?_⟩
    intro j
    simp only [scNode, three_eq]
    constructor
    · have := polar 1 zero_le_one (phasors (x.u[m.2]'hl) j)
      simpa using this
    · have h3 : (0 : ℝ) < √3 := Real.sqrt_pos.mpr (by norm_num)
      have := polar (A.uRated e.id / √3) (by positivity) (phasors (x.u[m.2]'hl) j)
      have he : uScale .asym * A.uRated e.id = A.uRated e.id / √3 := by simp only [uScale]; ring
      rw [he]
      exact this

/-- C62, branches of a short-circuit calculation. The nodes of a line have the same rated voltage (`hline`), which the constructor of a line requires. -/
theorem sc_branches {D : CompType → List (Elem K)} {c : Container (Comp K)} (h : build D = .ok c) (A : Attr) (O : Objects) (fault : Nat → Option (Nat × Nat)) (sol : List (ScSol σ))
    (hf : ScFits O fault sol) (t : CompType) (ht : t ∈ branchTypes) :
    (scBranches t A c O sol).length = (D t).length ∧ ∀ (k : Nat) (e : Elem K), (D t)[k]? = some e → 0 < A.uRated e.n1 → 0 < A.uRated e.n2 →
      (t = .line ∨ t = .asymLine → A.uRated e.n1 = A.uRated e.n2) →
      ∃ r, (scBranches t A c O sol)[k]? = some (some r) ∧ r.id = e.id ∧
        (O.branch (position D t k) = none → r.energized = false ∧ r.fromSide = ⟨0, 0⟩ ∧ r.toSide = ⟨0, 0⟩) ∧
        ∀ m, O.branch (position D t k) = some m → r.energized = true ∧ ∃ x i, sol[m.1]? = some x ∧ x.branch[m.2]? = some i ∧
          InAmpere r.fromSide (A.uRated e.n1) i.1 ∧ InAmpere r.toSide (A.uRated e.n2) i.2 := by
  refine ⟨produce_length h _ _ _, ?_⟩
  intro k e hk h1 h2 hline
  have hr : (scBranches t A c O sol)[k]? = some (scBranchResult A O sol ⟨t, e⟩ (position D t k)) := by
    unfold scBranches
    rw [produce_eq h hk (seq_position h hk)]
    rfl
  have hto : ratedTo A (⟨t, e⟩ : Comp K) = A.uRated e.n2 := by
    simp only [branchTypes, List.mem_cons, List.not_mem_nil, or_false] at ht
    rcases ht with rfl | rfl | rfl | rfl | rfl <;> simp only [ratedTo]
    · exact hline (.inl rfl)
    · exact hline (.inr rfl)
  rw [hr]
  cases hm : O.branch (position D t k) with
  | none => exact ⟨⟨e.id, false, ⟨0, 0⟩, ⟨0, 0⟩⟩, by simp [scBranchResult, hm], rfl, fun _ => ⟨rfl, rfl, rfl⟩, by intro m h0; cases h0⟩
  | some m =>
    obtain ⟨x, hx, hl⟩ := hf.branch _ m hm
    refine ⟨⟨e.id, true, scCurrent (baseCurrent (A.uRated e.n1)) (x.branch[m.2]'hl).1, scCurrent (baseCurrent (A.uRated e.n2)) (x.branch[m.2]'hl).2⟩,
      by simp [scBranchResult, hm, scAt_of hx hl, hto], rfl, (by intro h0; cases h0), ?_⟩
    intro m' hm'
    cases hm'
    exact ⟨rfl, x, _, hx, List.getElem?_eq_getElem hl, scCurrent_ok h1 _, scCurrent_ok h2 _⟩

/-- C62, three-winding transformers of a short-circuit calculation. -/
theorem sc_branch3s {D : CompType → List (Elem K)} {c : Container (Comp K)} (h : build D = .ok c) (A : Attr) (O : Objects) (fault : Nat → Option (Nat × Nat)) (sol : List (ScSol σ))
    (hf : ScFits O fault sol) :
    (scBranch3s A c O sol).length = (D .threeWindingTransformer).length ∧ ∀ (k : Nat) (e : Elem K), (D .threeWindingTransformer)[k]? = some e →
      0 < A.uRated e.n1 → 0 < A.uRated e.n2 → 0 < A.uRated e.n3 →
      ∃ r, (scBranch3s A c O sol)[k]? = some (some r) ∧ r.id = e.id ∧
        (O.branch3 k = none → r.energized = false ∧ ∀ l, r.side l = ⟨0, 0⟩) ∧
        ∀ m, O.branch3 k = some m → r.energized = true ∧ ∃ x, sol[m.1]? = some x ∧
          ∀ l : Fin 3, ∃ i, x.branch[m.2 l]? = some i ∧ InAmpere (r.side l) (A.uRated (![e.n1, e.n2, e.n3] l)) i.1 := by
  refine ⟨produce_length h _ _ _, ?_⟩
  intro k e hk h1 h2 h3
  have hpos : position D .threeWindingTransformer k = k := by simp [position, family]
  have hr : (scBranch3s A c O sol)[k]? = some (scBranch3Result A O sol ⟨.threeWindingTransformer, e⟩ k) := by
    unfold scBranch3s
    rw [produce_eq h hk (seq_position h hk), hpos]
    rfl
  rw [hr]
  cases hm : O.branch3 k with
  | none => exact ⟨⟨e.id, false, fun _ => ⟨0, 0⟩⟩, by simp [scBranch3Result, hm], rfl, fun _ => ⟨rfl, fun _ => rfl⟩, by intro m h0; cases h0⟩
  | some m =>
    obtain ⟨x, hx, hl⟩ := hf.branch3 _ m hm
    have hat : ∀ l, scAt sol ScSol.branch (m.1, m.2 l) = some (x.branch[m.2 l]'(hl l)) := fun l => scAt_of hx (hl l)
    refine ⟨⟨e.id, true, fun l => scCurrent (baseCurrent (A.uRated (node3 (⟨.threeWindingTransformer, e⟩ : Comp K) l)))
      ((![(x.branch[m.2 0]'(hl 0)).1, (x.branch[m.2 1]'(hl 1)).1, (x.branch[m.2 2]'(hl 2)).1] : Fin 3 → CV σ) l)⟩,
      by simp [scBranch3Result, hm, hat], rfl, (by intro h0; cases h0), ?_⟩
    intro m' hm'
    cases hm'
    refine ⟨rfl, x, hx, ?_⟩
    intro l
    refine ⟨_, List.getElem?_eq_getElem (hl l), ?_⟩
    have h3l : l = 0 ∨ l = 1 ∨ l = 2 := by
      have : ∀ j : Fin 3, j = 0 ∨ j = 1 ∨ j = 2 := by decide
      exact this l
    rcases h3l with rfl | rfl | rfl
    · exact scCurrent_ok h1 _
    · exact scCurrent_ok h2 _
    · exact scCurrent_ok h3 _

theorem sc_appl {D : CompType → List (Elem K)} {c : Container (Comp K)} (h : build D = .ok c) (A : Attr) (sol : List (ScSol σ)) (t : CompType) (hpos : ∀ k, position D t k = k)
    (member : ScSol σ → List (CV σ)) (coup : Nat → Option (Nat × Nat)) (hf : ∀ s m, coup s = some m → ∃ x, sol[m.1]? = some x ∧ m.2 < (member x).length) (d : ℝ)
    (hd : injectionDirection t = d) (hd' : d = 1 ∨ d = -1) (k : Nat) (e : Elem K) (hk : (D t)[k]? = some e) (hu : 0 < A.uRated e.n1) :
    ∃ r, (produce t c some (scApplResult member coup A sol))[k]? = some (some r) ∧ r.id = e.id ∧ (coup k = none → r.energized = false ∧ r.cur = ⟨0, 0⟩) ∧
      ∀ m, coup k = some m → r.energized = A.on e.id ∧ ∃ x i, sol[m.1]? = some x ∧ (member x)[m.2]? = some i ∧ InAmpere r.cur (A.uRated e.n1) fun j => d * i j := by
  have hr : (produce t c some (scApplResult member coup A sol))[k]? = some (scApplResult member coup A sol ⟨t, e⟩ k) := by
    rw [produce_eq h hk (seq_position h hk), hpos]
    rfl
  rw [hr]
  cases hm : coup k with
  | none => exact ⟨⟨e.id, false, ⟨0, 0⟩⟩, by simp [scApplResult, hm], rfl, fun _ => ⟨rfl, rfl⟩, by intro m h0; cases h0⟩
  | some m =>
    obtain ⟨x, hx, hl⟩ := hf _ m hm
    refine ⟨scAppl A ⟨t, e⟩ ((member x)[m.2]'hl), by simp [scApplResult, hm, scAt_of hx hl], rfl, (by intro h0; cases h0), ?_⟩
    intro m' hm'
    cases hm'
    refine ⟨rfl, x, _, hx, List.getElem?_eq_getElem hl, ?_⟩
    intro j
    simp only [scAppl, hd]
    rw [three_eq, ampere_eq]
    have hph : phasors (σ := σ) (fun j => (d : ℂ) * ((member x)[m.2]'hl) j) j = d * phasors ((member x)[m.2]'hl) j := by
      cases σ
      · simp only [phasors]; ring
      · rfl
    rw [hph]
    exact flipped _ d (ampere_pos hu).le hd' _

/-- C62, sources of a short-circuit calculation: the current they inject. -/
theorem sc_sources {D : CompType → List (Elem K)} {c : Container (Comp K)} (h : build D = .ok c) (A : Attr) (O : Objects) (fault : Nat → Option (Nat × Nat)) (sol : List (ScSol σ))
    (hf : ScFits O fault sol) :
    (scSources A c O sol).length = (D .source).length ∧ ∀ (k : Nat) (e : Elem K), (D .source)[k]? = some e → 0 < A.uRated e.n1 →
      ∃ r, (scSources A c O sol)[k]? = some (some r) ∧ r.id = e.id ∧ (O.source k = none → r.energized = false ∧ r.cur = ⟨0, 0⟩) ∧
        ∀ m, O.source k = some m → r.energized = A.on e.id ∧ ∃ x i, sol[m.1]? = some x ∧ x.source[m.2]? = some i ∧ InAmpere r.cur (A.uRated e.n1) i := by
  refine ⟨produce_length h _ _ _, ?_⟩
  intro k e hk hu
  obtain ⟨r, h1, h2, h3, h4⟩ := sc_appl h A sol .source (by intro k; simp [position, family]) ScSol.source O.source hf.source 1 (by simp [injectionDirection]) (.inl rfl) k e hk hu
  refine ⟨r, h1, h2, h3, ?_⟩
  intro m hm
  obtain ⟨h5, x, i, h6, h7, h8⟩ := h4 m hm
  exact ⟨h5, x, i, h6, h7, by simpa using h8⟩

/-- C62, shunts of a short-circuit calculation: the current they draw. -/
theorem sc_shunts {D : CompType → List (Elem K)} {c : Container (Comp K)} (h : build D = .ok c) (A : Attr) (O : Objects) (fault : Nat → Option (Nat × Nat)) (sol : List (ScSol σ))
    (hf : ScFits O fault sol) :
    (scShunts A c O sol).length = (D .shunt).length ∧ ∀ (k : Nat) (e : Elem K), (D .shunt)[k]? = some e → 0 < A.uRated e.n1 →
      ∃ r, (scShunts A c O sol)[k]? = some (some r) ∧ r.id = e.id ∧ (O.shunt k = none → r.energized = false ∧ r.cur = ⟨0, 0⟩) ∧
        ∀ m, O.shunt k = some m → r.energized = A.on e.id ∧ ∃ x i, sol[m.1]? = some x ∧ x.shunt[m.2]? = some i ∧ InAmpere r.cur (A.uRated e.n1) fun j => -i j := by
  refine ⟨produce_length h _ _ _, ?_⟩
  intro k e hk hu
  obtain ⟨r, h1, h2, h3, h4⟩ := sc_appl h A sol .shunt (by intro k; simp [position, family]) ScSol.shunt O.shunt hf.shunt (-1) (by simp [injectionDirection]) (.inr rfl) k e hk hu
  refine ⟨r, h1, h2, h3, ?_⟩
  intro m hm
  obtain ⟨h5, x, i, h6, h7, h8⟩ := h4 m hm
  exact ⟨h5, x, i, h6, h7, by simpa using h8⟩

/-- C62, loads and generators do not take part in a short-circuit calculation: they are always reported as not energised. -/
theorem sc_loads {D : CompType → List (Elem K)} {c : Container (Comp K)} (h : build D = .ok c) (t : CompType) :
    (scLoads t c).length = (D t).length ∧ ∀ (k : Nat) (e : Elem K), (D t)[k]? = some e → (scLoads t c)[k]? = some (some ⟨e.id, false, ⟨0, 0⟩⟩) := by
  refine ⟨produce_length h _ _ _, ?_⟩
  intro k e hk
  unfold scLoads
  rw [produce_eq h hk (seq_position h hk)]
  rfl

/-- C62, faults: the current into the fault. -/
theorem sc_faults {D : CompType → List (Elem K)} {c : Container (Comp K)} (h : build D = .ok c) (A : Attr) (O : Objects) (fault : Nat → Option (Nat × Nat)) (sol : List (ScSol σ))
    (hf : ScFits O fault sol) :
    (scFaults A fault c sol).length = (D .fault).length ∧ ∀ (k : Nat) (e : Elem K), (D .fault)[k]? = some e → 0 < A.uRated e.object →
      ∃ r, (scFaults A fault c sol)[k]? = some (some r) ∧ r.id = e.id ∧ (fault k = none → r.energized = false ∧ r.cur = ⟨0, 0⟩) ∧
        ∀ m, fault k = some m → r.energized = true ∧ ∃ x i, sol[m.1]? = some x ∧ x.fault[m.2]? = some i ∧ InAmpere r.cur (A.uRated e.object) i := by
  refine ⟨produce_length h _ _ _, ?_⟩
  intro k e hk hu
  have hpos : position D .fault k = k := by simp [position, family]
  have hr : (scFaults A fault c sol)[k]? = some (scFaultResult A fault sol ⟨.fault, e⟩ k) := by
    unfold scFaults
    rw [produce_eq h hk (seq_position h hk), hpos]
    rfl
  rw [hr]
  cases hm : fault k with
  | none => exact ⟨⟨e.id, false, ⟨0, 0⟩⟩, by simp [scFaultResult, hm], rfl, fun _ => ⟨rfl, rfl⟩, by intro m h0; cases h0⟩
  | some m =>
    obtain ⟨x, hx, hl⟩ := hf.fault _ m hm
    refine ⟨scFault (A.uRated e.object) ⟨.fault, e⟩ (x.fault[m.2]'hl), by simp [scFaultResult, hm, scAt_of hx hl], rfl, (by intro h0; cases h0), ?_⟩
    intro m' hm'
    cases hm'
    refine ⟨rfl, x, _, hx, List.getElem?_eq_getElem hl, ?_⟩
    intro j
    simp only [scFault]
    rw [three_eq, ampere_eq]
    have := polar 1 zero_le_one (phasors (x.fault[m.2]'hl) j * (ampere (A.uRated e.object) : ℝ))
    rw [one_mul, Complex.ofReal_one, one_mul, mul_comm (phasors _ _)] at this
    rw [mul_comm (phasors _ _)]
    exact this

end PGM.Reports
