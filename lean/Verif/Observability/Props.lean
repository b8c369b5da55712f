import Verif.Observability.Grid
import Mathlib.Tactic.LinearCombination

/-!
# Observability: properties (C40)
-/

namespace PGM.Observability

open PGM.YBus

variable {K : Type} [Field K]

/-- Decides, for a radial grid with at most one voltage phasor sensor, whether the check accepts. -/
theorem radial_accepts {T : Topo} (hv : T.Valid) {S : Structure} (hS : build T = some S) (hr : Radial T) (M : Meas)
    (hV : ∃ v, v < T.nBus ∧ M.voltage v = true)
    (hP : ∀ a b, a < T.nBus → b < T.nBus → HasPhasor M a → HasPhasor M b → a = b)
    (hG : M.globalAngleCurrent = true → ∃ v, v < T.nBus ∧ HasPhasor M v) (y : Nat → K) (hy : Proper T y) :
    (Determined T M y → ∃ ill, check T true S M = .returns true ill) ∧
    (¬ Determined T M y → ∃ r, check T true S M = .throws r) := by
  classical
  obtain ⟨S', hS', I⟩ := structure_correct hv
  rw [hS] at hS'; injection hS' with hS'; subst hS'
  obtain ⟨up, hu⟩ := exists_up hv hr
  have L := layout hv hS I hu
  obtain ⟨f1, f2, f3⟩ := scan_radial hv hS I hu M
  obtain ⟨_, p1, t1⟩ := scan_upto T S M T.nBus
  set s := scan T S M with hs
  let s₀ : Sensors := ⟨s.flow, s.phasor⟩
  have hn := hv.nonempty
  have hph : ∀ v, s₀.phasor v = true ↔ v < T.nBus ∧ HasPhasor M v := p1
  have hp : ∀ a b, s₀.phasor a = true → s₀.phasor b = true → a = b := fun a b ha hb =>
    hP a b ((hph a).mp ha).1 ((hph b).mp hb).1 ((hph a).mp ha).2 ((hph b).mp hb).2
  have hpn : ∀ a, s₀.phasor a = true → a < T.nBus := fun a ha => ((hph a).mp ha).1
  -- at most one voltage phasor
  have hle : count T.nBus s.phasor ≤ 1 := by
    rw [count_card, Finset.card_le_one]
    intro a ha b hb
    rw [Finset.mem_filter] at ha hb
    exact hp a b ha.2 hb.2
  have hsuff := sufficient_iff (s₀ := s₀) L hn f3 hp hpn
  -- if no branch fails the voltages are determined
  have hsound : (∀ c, c + 1 < T.nBus → ¬ Fails S s₀ up c) → Determined T M y := by
    intro hF
    refine determined_of hv hu M hy fun f h1 h2 => ?_
    refine zero_of_assignment hu.lt (assignment (s₀ := s₀) L hF) (fun b hb hm => h1 b hb ((f2 b hb).mp hm)) fun v hvn hm => ?_
    exact h2 v hvn ((f1 v hvn).mp hm)
  -- if one fails they are not
  have hcomplete : ∀ c, c + 1 < T.nBus → Fails S s₀ up c → ¬ Determined T M y := by
    intro c hc hF
    have hlt := hu.lt c hc
    have blk : ∀ d, d + 1 < T.nBus → s₀.flow (diag S d + 1) = false ∧ (before S s₀ d).flow (diag S d) = false →
        ¬ BranchMeasured T M up d ∧ ((¬ (d < T.nBus → M.injection d = true)) ∨
          ∃ e, e < d ∧ up e = d ∧ e + 1 < T.nBus ∧ TakesUpper S s₀ up e) := by
      intro d hd ⟨h1, h2⟩
      refine ⟨fun h => ?_, ?_⟩
      · have h1' : s.flow (diag S d + 1) = false := h1
        rw [(f2 d hd).mpr h] at h1'; cases h1'
      · by_cases hm : M.injection d = true
        · right
          have hi := (before_inv (s₀ := s₀) L d (by omega)).2.1 d (le_refl d) (by omega)
          by_contra hne
          have : (before S s₀ d).flow (diag S d) = true :=
            hi.mpr ⟨(f1 d (by omega)).mpr hm, fun e he hue ht => hne ⟨e, he, hue, by omega, ht⟩⟩
          rw [h2] at this; cases this
        · left; intro h; exact hm (h (by omega))
    have hbl : ∀ d, d + 1 < T.nBus → (d + 1 < T.nBus ∧ s₀.flow (diag S d + 1) = false ∧ (before S s₀ d).flow (diag S d) = false) →
        ¬ BranchMeasured T M up d ∧ ((¬ (d < T.nBus → M.injection d = true)) ∨
          ∃ e, e < d ∧ up e = d ∧ (e + 1 < T.nBus ∧ s₀.flow (diag S e + 1) = false ∧ (before S s₀ e).flow (diag S e) = false)) := by
      intro d hd h
      obtain ⟨h1, h2⟩ := blk d hd h.2
      refine ⟨h1, h2.imp_right ?_⟩
      rintro ⟨e, he, hue, hen, ht⟩
      refine ⟨e, he, hue, hen, ?_, ht.2.1⟩
      rw [← (before_inv (s₀ := s₀) L e (by omega)).1 e (le_refl e) hen]
      exact ht.1
    have hM : s₀.flow (diag S c + 1) = false := by
      rw [← (before_inv (s₀ := s₀) L c (by omega)).1 c (le_refl c) hc]; exact hF.1
    have hup' : (¬ (up c < T.nBus → M.injection (up c) = true)) ∨ ∃ e, e < c ∧ up e = up c ∧
        (e + 1 < T.nBus ∧ s₀.flow (diag S e + 1) = false ∧ (before S s₀ e).flow (diag S e) = false) := by
      by_cases hm : M.injection (up c) = true
      · right
        have hi := (before_inv (s₀ := s₀) L c (by omega)).2.1 (up c) (by omega) hlt.2
        by_contra hne
        have : (before S s₀ c).flow (diag S (up c)) = true := by
          refine hi.mpr ⟨(f1 _ hlt.2).mpr hm, fun e he hue ht => hne ⟨e, he, hue, by omega, ?_, ht.2.1⟩⟩
          rw [← (before_inv (s₀ := s₀) L e (by omega)).1 e (le_refl e) (by omega)]
          exact ht.1
        rw [hF.2.2] at this; cases this
      · left; intro h; exact hm (h hlt.2)
    obtain ⟨f, g1, g2, g3⟩ := flow_of_failure (K := K) hu.lt hbl hc ⟨hc, hM, hF.2.1⟩ hup'
    exact not_determined_of hv hu M hy hc g1 (fun b _ h => g2 b h) fun v _ h => g3 v fun _ => h
  -- enough injections
  have hearly : s.total > (T.nBus : Int) - 2 → Determined T M y := by
    intro h
    have hcnt : T.nBus ≤ count T.nBus M.injection + 1 := by
      have := t1.2
      have hh : s.total ≤ (count T.nBus M.injection : Int) := this
      omega
    rw [count_card] at hcnt
    -- at most one bus is unmeasured
    have hone : ((Finset.range T.nBus).filter fun k => ¬ M.injection k = true).card ≤ 1 := by
      have := Finset.card_filter_add_card_filter_not (s := Finset.range T.nBus) (fun k => M.injection k = true)
      rw [Finset.card_range] at this
      omega
    refine determined_of hv hu M hy fun f h1 h2 => ?_
    obtain ⟨v₀, hv₀⟩ : ∃ v₀, ∀ v, v < T.nBus → v ≠ v₀ → M.injection v = true := by
      by_cases hex : ∃ v, v < T.nBus ∧ ¬ M.injection v = true
      · obtain ⟨v₀, h3, h4⟩ := hex
        refine ⟨v₀, fun v hvn hne => ?_⟩
        by_contra hcon
        exact hne (Finset.card_le_one.mp hone v (by simp [hvn, hcon]) v₀ (by simp [h3, h4]))
      · exact ⟨0, fun v hvn _ => by by_contra hcon; exact hex ⟨v, hvn, hcon⟩⟩
    exact zero_of_injections (Mi := fun v => M.injection v = true) hu.lt hv₀ h2
  -- the check
  have hcheck : check T true S M = match necessary T.nBus (count S.nnz s.flow) (count T.nBus s.phasor) M.globalAngleCurrent with
      | .error r => .throws r
      | .ok () => if s.total > (T.nBus : Int) - 2 then .returns true s.ill
        else conclude s.ill (sufficientRadial T.nBus S s₀ (count T.nBus s.phasor)) := by
    have hany : M.anyVoltage T.nBus = true := by
      unfold Meas.anyVoltage
      rw [List.any_eq_true]
      obtain ⟨v, h1, h2⟩ := hV
      exact ⟨v, by simpa using h1, h2⟩
    unfold check
    rw [hany]
    simp only [s₀, hs, Bool.not_true, Bool.false_eq_true, if_false, Bool.true_eq_false, and_false, if_true]
    generalize necessary T.nBus (count S.nnz (scan T S M).flow) (count T.nBus (scan T S M).phasor) M.globalAngleCurrent = e
    cases e <;> rfl
  constructor
  · intro hD
    have hno : ∀ c, c + 1 < T.nBus → ¬ Fails S s₀ up c := fun c hc hF => hcomplete c hc hF hD
    have hen := enough L hno
    have hnec : necessary T.nBus (count S.nnz s.flow) (count T.nBus s.phasor) M.globalAngleCurrent = .ok () := by
      have hen' : T.nBus - 1 ≤ count S.nnz s.flow := hen
      unfold necessary
      rw [if_neg (by omega), if_neg (by omega), if_neg]
      rintro ⟨h1, h2⟩
      obtain ⟨v, h3, h4⟩ := hG h1
      have : 0 < count T.nBus s.phasor := by
        rw [count_card]
        exact Finset.card_pos.mpr ⟨v, by simp [h3]; exact (hph v).mpr ⟨h3, h4⟩⟩
      omega
    refine ⟨s.ill, ?_⟩
    rw [hcheck, hnec]
    simp only
    split_ifs
    · rfl
    · have := hsuff.mpr hno
      rw [show count T.nBus s.phasor = count T.nBus s₀.phasor from rfl, this]
      rfl
  · intro hD
    rw [hcheck]
    cases hnec : necessary T.nBus (count S.nnz s.flow) (count T.nBus s.phasor) M.globalAngleCurrent with
    | error r => exact ⟨r, rfl⟩
    | ok u =>
      simp only
      rw [if_neg fun h => hD (hearly h)]
      cases hsr : sufficientRadial T.nBus S s₀ (count T.nBus s.phasor) with
      | error r => exact ⟨r, rfl⟩
      | ok u => exact absurd (hsound (hsuff.mp hsr)) hD

/-! ## Two states with the same readings -/

theorem taken_sub (y U U' : Nat → K) (v : Nat) (b : (Option Nat × Option Nat) × Nat) :
    taken y (fun i => U i - U' i) v b = taken y U v b - taken y U' v b := by
  obtain ⟨⟨f, t⟩, j⟩ := b
  rcases f with _ | f
  · simp [taken]
  · rcases t with _ | t
    · simp [taken]
    · simp only [taken]
      split_ifs <;> ring

theorem injected_sub (T : Topo) (y U U' : Nat → K) (v : Nat) :
    injected T y (fun i => U i - U' i) v = injected T y U v - injected T y U' v := by
  unfold injected
  induction T.branches.zipIdx with
  | nil => simp
  | cons b l ih =>
    simp only [List.map_cons, List.sum_cons, ih, taken_sub]
    ring

/-- Without a voltage sensor every grid is rejected. -/
theorem no_voltage_throws (T : Topo) (radial : Bool) (S : Structure) (M : Meas) (h : ∀ v, v < T.nBus → M.voltage v ≠ true) :
    check T radial S M = .throws .noVoltage := by
  have : M.anyVoltage T.nBus = false := by
    unfold Meas.anyVoltage
    rw [List.any_eq_false]
    intro v hv' hm
    exact h v (by simpa using hv') hm
  unfold check
  rw [this]
  rfl

/-- With a current sensor that has a global angle and without a voltage phasor every grid is rejected. -/
theorem no_reference_throws (T : Topo) (radial : Bool) (S : Structure) (M : Meas) (hg : M.globalAngleCurrent = true)
    (h : ∀ v, v < T.nBus → ¬ HasPhasor M v) : ∃ r, check T radial S M = .throws r := by
  have h0 : count T.nBus (scan T S M).phasor = 0 := by
    rw [count_card, Finset.card_eq_zero, Finset.filter_eq_empty_iff]
    intro v hv' hm
    have := ((scan_upto T S M T.nBus).2.1 v).mp hm
    exact h v this.1 this.2
  have hn : ∃ r, necessary T.nBus (count S.nnz (scan T S M).flow) (count T.nBus (scan T S M).phasor) M.globalAngleCurrent = .error r := by
    rw [h0]
    unfold necessary
    split_ifs
    · exact ⟨_, rfl⟩
    · exact ⟨_, rfl⟩
    · exact ⟨_, rfl⟩
    · rename_i h3; exact absurd ⟨hg, rfl⟩ h3
  obtain ⟨r, hr'⟩ := hn
  unfold check
  simp only [hr']
  split
  · exact ⟨_, rfl⟩
  · exact ⟨_, rfl⟩

/-- If the check accepts a radial grid, then two states with the same flow in every measured branch, the same injection at every
measured bus and the same voltage at one bus are the same: they have the same voltages, and with them the same flows. -/
theorem accepted_determines_state {T : Topo} (hv : T.Valid) {S : Structure} (hS : build T = some S) (hr : Radial T) (M : Meas)
    (hP : ∀ a b, a < T.nBus → b < T.nBus → HasPhasor M a → HasPhasor M b → a = b) {ill : Bool}
    (hacc : check T true S M = .returns true ill) (y : Nat → K) (hy : Proper T y) (U U' : Nat → K)
    (hbranch : ∀ (k f t : Nat), T.branches[k]? = some (some f, some t) → HasFlowSensor M k →
      y k * (U f - U t) = y k * (U' f - U' t))
    (hbus : ∀ v, v < T.nBus → M.injection v = true → injected T y U v = injected T y U' v)
    (href : ∃ v, v < T.nBus ∧ U v = U' v) : ∀ v, v < T.nBus → U v = U' v := by
  have hV : ∃ v, v < T.nBus ∧ M.voltage v = true := by
    by_contra h
    rw [no_voltage_throws T true S M fun v hv' hm => h ⟨v, hv', hm⟩] at hacc
    cases hacc
  have hG : M.globalAngleCurrent = true → ∃ v, v < T.nBus ∧ HasPhasor M v := by
    intro hg
    by_contra h
    obtain ⟨r, hr'⟩ := no_reference_throws T true S M hg fun v hv' hm => h ⟨v, hv', hm⟩
    rw [hr'] at hacc
    cases hacc
  have hD : Determined T M y := by
    by_contra hD
    obtain ⟨r, hr'⟩ := (radial_accepts hv hS hr M hV hP hG y hy).2 hD
    rw [hr'] at hacc
    cases hacc
  have hU : Unseen T M y fun i => U i - U' i := by
    refine ⟨fun k f t hk hs => ?_, fun v hvn hm => ?_⟩
    · have := hbranch k f t hk hs
      linear_combination this
    · rw [injected_sub, hbus v hvn hm, sub_self]
  obtain ⟨w, hw, he⟩ := href
  intro v hvn
  have := hD _ hU v w hvn hw
  rw [he, sub_self, sub_eq_zero] at this
  exact this

end PGM.Observability
