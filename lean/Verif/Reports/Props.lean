import Verif.Reports.Lemmas

/-!
# C62: apparent powers, power factors, loadings and short-circuit records follow from the state of the grid
-/

namespace PGM.Reports

open PGM.Container PGM.Input PGM.Update PGM.Topology PGM.PowerFlow PGM.Output

variable {K : Type} {σ : Symm}

/-! ## Steady state -/

theorem branch_both {D : CompType → List (Elem K)} {c : Container (Comp K)} (h : build D = .ok c) (A : Attr) (rating : Int → Option ℝ) (O : Objects) (sol : List (Sol σ))
    (hf : Fits O sol) (t : CompType) (k : Nat) (e : Elem K) (hk : (D t)[k]? = some e) (hb : t ∈ branchTypes) :
    O.branch (position D t k) = none ∧ (branchRecords t A c O sol)[k]? = some (some (branchNull ⟨t, e⟩)) ∧ (branchMores t A rating c O sol)[k]? = some (some branchMoreNull) ∨
      ∃ b : BranchSol σ, (branchRecords t A c O sol)[k]? = some (some (branchOutput A ⟨t, e⟩ b)) ∧ (branchMores t A rating c O sol)[k]? = some (some (branchMore A rating ⟨t, e⟩ b)) := by
  have h1 : (branchRecords t A c O sol)[k]? = some (branchResult A O sol ⟨t, e⟩ (position D t k)) := by
    unfold branchRecords
    rw [produce_eq h hk (seq_position h hk)]
    rfl
  have h2 : (branchMores t A rating c O sol)[k]? = some (branchMoreResult A rating O sol ⟨t, e⟩ (position D t k)) := by
    unfold branchMores
    rw [produce_eq h hk (seq_position h hk)]
    rfl
  rw [h1, h2]
  cases hm : O.branch (position D t k) with
  | none => exact .inl ⟨rfl, by simp [branchResult, hm], by simp [branchMoreResult, hm]⟩
  | some m =>
    obtain ⟨x, hx, hl⟩ := hf.branch _ m hm
    have hb : at2 sol Sol.branch m = some x.branch[m.2] := by simp [at2, hx, hl]
    exact .inr ⟨x.branch[m.2], by simp [branchResult, hm, hb], by simp [branchMoreResult, hm, hb]⟩

/-- C62, branches. Whatever the result of the solver, the apparent powers belong to the reported active and reactive powers, and the loading of an energised branch is the documented one. One that is
not energised is reported with zeros. -/
theorem branch_reports {D : CompType → List (Elem K)} {c : Container (Comp K)} (h : build D = .ok c) (A : Attr) (rating : Int → Option ℝ) (O : Objects) (sol : List (Sol σ))
    (hf : Fits O sol) (t : CompType) (ht : t ∈ branchTypes) (k : Nat) (e : Elem K) (hk : (D t)[k]? = some e) (hr : rating e.id ≠ some 0) :
    ∃ r x, (branchRecords t A c O sol)[k]? = some (some r) ∧ (branchMores t A rating c O sol)[k]? = some (some x) ∧
      (∀ j, x.sFrom j = √(r.pFrom j ^ 2 + r.qFrom j ^ 2) ∧ x.sTo j = √(r.pTo j ^ 2 + r.qTo j ^ 2)) ∧
      (r.energized = true → HasLoading r x.sFrom x.sTo t (rating e.id) x.loading) ∧ (r.energized = false → x.loading = some 0) := by
  rcases branch_both h A rating O sol hf t k e hk ht with ⟨_, h1, h2⟩ | ⟨b, h1, h2⟩
  · refine ⟨_, _, h1, h2, ?_, ?_, fun _ => rfl⟩
    · intro j
      simp [branchMoreNull, branchNull]
    · intro h0; cases h0
  · refine ⟨_, _, h1, h2, ?_, ?_, ?_⟩
    · intro j
      exact ⟨apparent _ _ (basePower_pos σ), apparent _ _ (basePower_pos σ)⟩
    · intro _
      have hmax := largest_eq (branchOutput A (⟨t, e⟩ : Comp K) b)
      cases hra : rating e.id with
      | none =>
        simp only [branchTypes, List.mem_cons, List.not_mem_nil, or_false] at ht
        rcases ht with rfl | rfl | rfl | rfl | rfl <;> simp only [branchMore, hra, loadingOf, Option.map_none]
        · exact .unrated _ (by simp)
        · exact .unrated _ (by simp)
        · exact .link _
        · exact .genericUnrated
        · exact .unrated _ (by simp)
      | some ρ =>
        have hρ : ρ ≠ 0 := fun h0 => hr (by rw [hra, h0])
        simp only [branchTypes, List.mem_cons, List.not_mem_nil, or_false] at ht
        rcases ht with rfl | rfl | rfl | rfl | rfl <;> simp only [branchMore, hra, loadingOf, Option.map_some, sumVal_eq]
        · exact .line ρ _ hρ hmax
        · exact .asymLine ρ _ hρ hmax
        · exact .link _
        · exact .generic ρ hρ
        · exact .transformer ρ hρ
    · intro h0; cases h0

theorem max3_mem (f : Fin 3 → ℝ) : max (max (f 0) (f 1)) (f 2) ∈ Set.range f := by
  rcases max_choice (max (f 0) (f 1)) (f 2) with h | h
  · rw [h]
    rcases max_choice (f 0) (f 1) with h | h
    · exact ⟨0, h.symm⟩
    · exact ⟨1, h.symm⟩
  · exact ⟨2, h.symm⟩

/-- C62, three-winding transformers. -/
theorem branch3_reports {D : CompType → List (Elem K)} {c : Container (Comp K)} (h : build D = .ok c) (A : Attr) (sn : Int → Fin 3 → ℝ) (O : Objects) (sol : List (Sol σ))
    (hf : Fits O sol) (k : Nat) (e : Elem K) (hk : (D .threeWindingTransformer)[k]? = some e) (hsn : ∀ l, sn e.id l ≠ 0) :
    ∃ r x, (branch3Records A c O sol)[k]? = some (some r) ∧ (branch3Mores sn c O sol)[k]? = some (some x) ∧
      (∀ l j, x.s l j = √(r.p l j ^ 2 + r.q l j ^ 2)) ∧
      (r.energized = true → (∀ l, x.loadings l = some ((∑ j, x.s l j) / sn e.id l)) ∧
        ∃ m, x.loading = some m ∧ IsGreatest (Set.range fun l => (∑ j, x.s l j) / sn e.id l) m) ∧
      (r.energized = false → x.loading = some 0) := by
  have hpos : position D .threeWindingTransformer k = k := by simp [position, family]
  have h1 : (branch3Records A c O sol)[k]? = some (branch3Result A O sol ⟨.threeWindingTransformer, e⟩ k) := by
    unfold branch3Records
    rw [produce_eq h hk (seq_position h hk), hpos]
    rfl
  have h2 : (branch3Mores sn c O sol)[k]? = some (branch3MoreResult sn O sol ⟨.threeWindingTransformer, e⟩ k) := by
    unfold branch3Mores
    rw [produce_eq h hk (seq_position h hk), hpos]
    rfl
  rw [h1, h2]
  cases hm : O.branch3 k with
  | none =>
    refine ⟨branch3Null ⟨.threeWindingTransformer, e⟩, branch3MoreNull, by simp [branch3Result, hm], by simp [branch3MoreResult, hm], ?_, ?_, fun _ => rfl⟩
    · intro l j
      simp [branch3MoreNull, branch3Null]
    · intro h0; cases h0
  | some m =>
    obtain ⟨x, hx, hl⟩ := hf.branch3 _ m hm
    have hb : ∀ i, at2 sol Sol.branch (m.1, m.2 i) = some (x.branch[m.2 i]'(hl i)) := by intro i; simp [at2, hx, hl]
    refine ⟨branch3Output A ⟨.threeWindingTransformer, e⟩ ![x.branch[m.2 0]'(hl 0), x.branch[m.2 1]'(hl 1), x.branch[m.2 2]'(hl 2)],
      branch3More sn ⟨.threeWindingTransformer, e⟩ ![x.branch[m.2 0]'(hl 0), x.branch[m.2 1]'(hl 1), x.branch[m.2 2]'(hl 2)],
      by simp [branch3Result, hm, hb], by simp [branch3MoreResult, hm, hb], ?_, ?_, ?_⟩
    · intro l j
      exact apparent _ _ (basePower_pos σ)
    · intro _
      refine ⟨fun l => by simp only [branch3More, sumVal_eq], _, rfl, ?_⟩
      simp only [sumVal_eq]
      constructor
      · exact max3_mem (fun l => _)
      · rintro _ ⟨l, rfl⟩
        have hl3 : l = 0 ∨ l = 1 ∨ l = 2 := by
          have : ∀ j : Fin 3, j = 0 ∨ j = 1 ∨ j = 2 := by decide
          exact this l
        rcases hl3 with rfl | rfl | rfl
        · exact le_max_of_le_left (le_max_left _ _)
        · exact le_max_of_le_left (le_max_right _ _)
        · exact le_max_right _ _
    · intro h0; cases h0

/-- C62 fails for the loadings of the sides of a three-winding transformer that is not energised: they are NaN, whereas its total loading is zero. -/
theorem branch3_side_loadings_missing {D : CompType → List (Elem K)} {c : Container (Comp K)} (h : build D = .ok c) (A : Attr) (sn : Int → Fin 3 → ℝ) (O : Objects)
    (sol : List (Sol σ)) (k : Nat) (e : Elem K) (hk : (D .threeWindingTransformer)[k]? = some e) (hoff : O.branch3 k = none) :
    ∃ r x, (branch3Records A c O sol)[k]? = some (some r) ∧ (branch3Mores sn c O sol)[k]? = some (some x) ∧ r.energized = false ∧ x.loading = some 0 ∧ ∀ l, x.loadings l = none := by
  have hpos : position D .threeWindingTransformer k = k := by simp [position, family]
  refine ⟨branch3Null ⟨.threeWindingTransformer, e⟩, branch3MoreNull, ?_, ?_, rfl, rfl, fun _ => rfl⟩
  · unfold branch3Records
    rw [produce_eq h hk (seq_position h hk), hpos]
    simp [branch3Result, hoff]
  · unfold branch3Mores
    rw [produce_eq h hk (seq_position h hk), hpos]
    simp [branch3MoreResult, hoff]

/-- C62, appliances: the apparent power belongs to the reported powers; the power factor is active by apparent power, between -1 and 1, and zero below the tolerance of 1e-8 VA. -/
theorem appliance_reports {D : CompType → List (Elem K)} {c : Container (Comp K)} (h : build D = .ok c) (A : Attr) (O : Objects) (sol : List (Sol σ))
    (hf : Fits O sol) (t : CompType) (ht : t ∈ applianceTypes) (k : Nat) (e : Elem K) (hk : (D t)[k]? = some e) :
    ∃ r x, (applRecords t A c O sol)[k]? = some (some r) ∧ (applMores t A c O sol)[k]? = some (some x) ∧
      ∀ j, x.s j = √(r.p j ^ 2 + r.q j ^ 2) ∧ (x.s j < 1 / 100000000 → x.pf j = 0) ∧ (1 / 100000000 ≤ x.s j → x.pf j = r.p j / x.s j) ∧ |x.pf j| ≤ 1 := by
  have h1 : (applRecords t A c O sol)[k]? = some (applResult (applMember t) (applCoupling O t) A sol ⟨t, e⟩ (position D t k)) := by
    unfold applRecords
    rw [produce_eq h hk (seq_position h hk)]
    rfl
  have h2 : (applMores t A c O sol)[k]? = some (applMoreResult (applMember t) (applCoupling O t) A sol ⟨t, e⟩ (position D t k)) := by
    unfold applMores
    rw [produce_eq h hk (seq_position h hk)]
    rfl
  rw [h1, h2]
  cases hm : applCoupling O t (position D t k) with
  | none =>
    refine ⟨applNull ⟨t, e⟩, ⟨0, 0⟩, by simp [applResult, hm], by simp [applMoreResult, hm], ?_⟩
    intro j
    simp [applNull]
  | some m =>
    have hfit : ∃ x, sol[m.1]? = some x ∧ m.2 < (applMember t x).length := by
      simp only [applianceTypes, List.mem_cons, List.not_mem_nil, or_false] at ht
      rcases ht with rfl | rfl | rfl | rfl | rfl | rfl
      · exact hf.source _ m hm
      · exact hf.shunt _ m hm
      · exact hf.loadGen _ m hm
      · exact hf.loadGen _ m hm
      · exact hf.loadGen _ m hm
      · exact hf.loadGen _ m hm
    obtain ⟨x, hx, hl⟩ := hfit
    have hb : at2 sol (applMember t) m = some (applMember t x)[m.2] := by simp [at2, hx, hl]
    refine ⟨applOutput A ⟨t, e⟩ (applMember t x)[m.2], applMore A ⟨t, e⟩ (applMember t x)[m.2], by simp [applResult, hm, hb], by simp [applMoreResult, hm, hb], ?_⟩
    intro j
    have hs : (applMore A (⟨t, e⟩ : Comp K) (applMember t x)[m.2]).s j
        = √((applOutput A (⟨t, e⟩ : Comp K) (applMember t x)[m.2]).p j ^ 2 + (applOutput A (⟨t, e⟩ : Comp K) (applMember t x)[m.2]).q j ^ 2) := by
      have hd : injectionDirection t ^ 2 = 1 := by cases t <;> simp [injectionDirection]
      have := apparent ((applMember t x)[m.2].s j) (basePower σ) (basePower_pos σ)
      simp only [applMore, applOutput]
      rw [this]
      congr 1
      simp only [mul_pow, hd, mul_one]
    refine ⟨hs, ?_, ?_, ?_⟩
    · intro hlt
      show powerFactor _ _ = 0
      unfold powerFactor
      exact if_pos hlt
    · intro hle
      show powerFactor _ _ = _
      unfold powerFactor
      exact if_neg (not_lt.mpr hle)
    · show |powerFactor _ _| ≤ 1
      unfold powerFactor
      split_ifs with hlt
      · simp
      · have hpos : 0 < (applMore A (⟨t, e⟩ : Comp K) (applMember t x)[m.2]).s j := lt_of_lt_of_le (by norm_num) (not_lt.mp hlt)
        show |_ / (applMore A (⟨t, e⟩ : Comp K) (applMember t x)[m.2]).s j| ≤ 1
        rw [abs_div, abs_of_pos hpos, div_le_one hpos, hs]
        exact Real.abs_le_sqrt (by nlinarith [sq_nonneg ((applOutput A (⟨t, e⟩ : Comp K) (applMember t x)[m.2]).q j)])

end PGM.Reports
