import Mathlib.Data.Finset.Card
import Mathlib.Data.Finset.Image
import Verif.Observability.Scan
import Verif.Observability.Tree

/-!
# Observability: the assignment of sensors in a radial grid

Helper lemmas for C40.
-/

namespace PGM.Observability

open PGM.YBus

/-! ## The loop -/

section
variable (S : Structure) (s₀ : Sensors)

/-- The sensors before bus `m` is treated. -/
def before (m : Nat) : Sensors := (List.range m).foldl (assignBus S) s₀

theorem before_succ (m : Nat) : before S s₀ (m + 1) = assignBus S (before S s₀ m) m := by
  unfold before
  rw [List.range_succ, List.foldl_append]
  rfl

variable (up : Nat → Nat)

/-- The branch takes the injection of its lower bus. -/
def TakesOwn (b : Nat) : Prop := (before S s₀ b).flow (diag S b + 1) = false ∧ (before S s₀ b).flow (diag S b) = true

/-- The branch takes the injection of its upper bus. -/
def TakesUpper (b : Nat) : Prop :=
  (before S s₀ b).flow (diag S b + 1) = false ∧ (before S s₀ b).flow (diag S b) = false ∧ (before S s₀ b).flow (diag S (up b)) = true

/-- There is no injection for the branch. -/
def Fails (b : Nat) : Prop :=
  (before S s₀ b).flow (diag S b + 1) = false ∧ (before S s₀ b).flow (diag S b) = false ∧ (before S s₀ b).flow (diag S (up b)) = false

/-- Where the entries of the matrix are. -/
structure Layout (n : Nat) : Prop where
  hup : ∀ b, b + 1 < n → b < up b ∧ up b < n
  col : ∀ b, b + 1 < n → S.colIndices[diag S b + 1]?.getD 0 = up b
  inj : ∀ b c, b < n → c < n → diag S b = diag S c → b = c
  off : ∀ b c, b + 1 < n → c < n → diag S b + 1 ≠ diag S c
  lt : ∀ b, b + 1 < n → diag S b + 1 < S.nnz
  ltd : ∀ b, b < n → diag S b < S.nnz

variable {S s₀ up} {n : Nat}

theorem assignBus_eq (L : Layout S up n) (s : Sensors) {b : Nat} (hb : b + 1 < n) :
    assignBus S s b =
      { steal b (diag S b + 1) (diag S b) (diag S (up b)) s with
        flow := Function.update (steal b (diag S b + 1) (diag S b) (diag S (up b)) s).flow (diag S b) false } := by
  have := L.col b hb
  unfold diag at this
  unfold assignBus
  simp only
  rw [this]
  rfl

/-- The state of entries that have not been treated. -/
theorem before_inv (L : Layout S up n) (m : Nat) (hm : m + 1 ≤ n) :
    (∀ c, m ≤ c → c + 1 < n → (before S s₀ m).flow (diag S c + 1) = s₀.flow (diag S c + 1)) ∧
    (∀ v, m ≤ v → v < n → ((before S s₀ m).flow (diag S v) = true ↔
      s₀.flow (diag S v) = true ∧ ∀ c, c < m → up c = v → ¬ TakesUpper S s₀ up c)) ∧
    (∀ k, (before S s₀ m).flow k = true → s₀.flow k = true ∨ ∃ c, c < m ∧ k = diag S c + 1) ∧
    (∀ v, v < m → (before S s₀ m).flow (diag S v) = false) ∧
    (∀ v, (before S s₀ m).phasor v = true → s₀.phasor v = true) := by
  induction m with
  | zero => simp [before]
  | succ m ih =>
    obtain ⟨i1, i2, i3, i4, i5⟩ := ih (by omega)
    have hm' : m + 1 < n := by omega
    have hu := L.hup m hm'
    rw [before_succ, assignBus_eq L _ hm']
    set s := before S s₀ m with hs
    refine ⟨fun c hc hcn => ?_, fun v hv hvn => ?_, fun k hk => ?_, fun v hv => ?_, fun v => ?_⟩
    · rw [← i1 c (by omega) hcn]
      have d0 : diag S c + 1 ≠ diag S m := L.off c m hcn (by omega)
      have d1 : diag S c + 1 ≠ diag S m + 1 := fun h => by have := L.inj c m (by omega) (by omega) (by omega); omega
      have d2 : diag S c + 1 ≠ diag S (up m) := L.off c _ hcn hu.2
      simp only [Function.update_of_ne d0, steal]
      split_ifs <;> simp only [Function.update_of_ne d0, Function.update_of_ne d1, Function.update_of_ne d2]
    · have d0 : diag S v ≠ diag S m := fun h => by have := L.inj v m hvn (by omega) h; omega
      have d1 : diag S v ≠ diag S m + 1 := fun h => L.off m v hm' hvn h.symm
      have key : (steal m (diag S m + 1) (diag S m) (diag S (up m)) s).flow (diag S v) = true ↔
          s.flow (diag S v) = true ∧ ¬ (up m = v ∧ TakesUpper S s₀ up m) := by
        unfold steal TakesUpper
        rw [← hs]
        split_ifs with h1 h2 h3 h4 h5
        · simp [h1]
        · simp [Function.update_of_ne d0, Function.update_of_ne d1, h2]
        · by_cases hv' : v = up m
          · subst hv'
            simp [h1, h2, h3]
          · have d2 : diag S v ≠ diag S (up m) := fun h => hv' (L.inj v _ hvn hu.2 h)
            simp only [Function.update_of_ne d2, Function.update_of_ne d1]
            exact ⟨fun h => ⟨h, fun h' => hv' h'.1.symm⟩, fun h => h.1⟩
        · simp [Function.update_of_ne d1, h3]
        · simp [Function.update_of_ne d1, h3]
        · simp [h3]
      simp only [Function.update_of_ne d0]
      rw [key, i2 v (by omega) hvn]
      constructor
      · rintro ⟨⟨h1, h2⟩, h3⟩
        refine ⟨h1, fun c hc huc ht => ?_⟩
        rcases Nat.lt_succ_iff_lt_or_eq.mp hc with hc | rfl
        · exact h2 c hc huc ht
        · exact h3 ⟨huc, ht⟩
      · rintro ⟨h1, h2⟩
        exact ⟨⟨h1, fun c hc => h2 c (by omega)⟩, fun h => h2 m (by omega) h.1 h.2⟩
    · have key : k = diag S m + 1 ∨ s.flow k = true := by
        by_cases hk1 : k = diag S m + 1
        · exact Or.inl hk1
        · right
          by_cases hk0 : k = diag S m
          · subst hk0; simp at hk
          · simp only [Function.update_of_ne hk0] at hk
            unfold steal at hk
            split_ifs at hk
            · exact hk
            · simpa only [Function.update_of_ne hk0, Function.update_of_ne hk1] using hk
            · by_cases hk2 : k = diag S (up m)
              · subst hk2; simp at hk
              · simpa only [Function.update_of_ne hk2, Function.update_of_ne hk1] using hk
            · simpa only [Function.update_of_ne hk1] using hk
            · simpa only [Function.update_of_ne hk1] using hk
            · exact hk
      rcases key with rfl | h
      · exact Or.inr ⟨m, by omega, rfl⟩
      · rcases i3 k h with h | ⟨c, hc, rfl⟩
        · exact Or.inl h
        · exact Or.inr ⟨c, by omega, rfl⟩
    · by_cases hvm : v = m
      · subst hvm; simp
      · have d0 : diag S v ≠ diag S m := fun h => hvm (L.inj v m (by omega) (by omega) h)
        have d1 : diag S v ≠ diag S m + 1 := fun h => L.off m v hm' (by omega) h.symm
        have d2 : diag S v ≠ diag S (up m) := fun h => by have := L.inj v _ (by omega) hu.2 h; omega
        have := i4 v (by omega)
        simp only [Function.update_of_ne d0]
        unfold steal
        split_ifs <;> simp only [Function.update_of_ne d0, Function.update_of_ne d1, Function.update_of_ne d2, this]
    · intro h
      apply i5 v
      simp only [steal] at h
      have hupd : ∀ w, Function.update s.phasor w false v = true → s.phasor v = true := by
        intro w hw
        by_cases hvw : v = w
        · subst hvw; simp at hw
        · rwa [Function.update_of_ne hvw] at hw
      split_ifs at h
      · exact h
      · exact h
      · exact h
      · exact hupd _ h
      · exact hupd _ h
      · exact h

/-- A branch that has found a sensor keeps it. -/
theorem before_keeps (L : Layout S up n) {c : Nat} (v : Bool) : ∀ m, c < m → m + 1 ≤ n → (before S s₀ (c + 1)).flow (diag S c + 1) = v →
    (before S s₀ m).flow (diag S c + 1) = v := by
  intro m
  induction m with
  | zero => intro h; omega
  | succ m ih =>
    intro h hm h0
    rcases Nat.lt_succ_iff_lt_or_eq.mp h with h | rfl
    · have := ih h (by omega) h0
      have hm' : m + 1 < n := by omega
      have hu := L.hup m hm'
      rw [before_succ, assignBus_eq L _ hm']
      have d0 : diag S c + 1 ≠ diag S m := L.off c m (by omega) (by omega)
      have d1 : diag S c + 1 ≠ diag S m + 1 := fun h => by have := L.inj c m (by omega) (by omega) (by omega); omega
      have d2 : diag S c + 1 ≠ diag S (up m) := L.off c _ (by omega) hu.2
      simp only [Function.update_of_ne d0, steal]
      split_ifs <;> simp only [Function.update_of_ne d0, Function.update_of_ne d1, Function.update_of_ne d2, this]
    · exact h0

theorem keeps_of_not_fails (L : Layout S up n) {c m : Nat} (hc : c < m) (hm : m + 1 ≤ n) (h : ¬ Fails S s₀ up c) :
    (before S s₀ m).flow (diag S c + 1) = true := by
  refine before_keeps L true m hc hm ?_
  have hc' : c + 1 < n := by omega
  rw [before_succ, assignBus_eq L _ hc']
  have d0 : diag S c + 1 ≠ diag S c := by omega
  have d2 : diag S c + 1 ≠ diag S (up c) := L.off c _ hc' (L.hup c hc').2
  unfold Fails at h
  simp only [Function.update_of_ne d0, steal]
  split_ifs with h1 h2 h3 h4 h5
  · exact h1
  · simp
  · simp [Function.update_of_ne d2]
  · simp
  · simp
  · exact absurd ⟨by simpa using h1, by simpa using h2, by simpa using h3⟩ h

/-- If a branch fails it is left without a sensor, or it takes the only voltage phasor. -/
theorem lost_of_fails (L : Layout S up n) (hp : ∀ a b, s₀.phasor a = true → s₀.phasor b = true → a = b) {c m : Nat} (hc : c < m)
    (hm : m + 1 ≤ n) (h : Fails S s₀ up c) :
    (before S s₀ m).flow (diag S c + 1) = false ∨ ((∃ v, s₀.phasor v = true) ∧ ∀ v, (before S s₀ m).phasor v = false) := by
  have hc' : c + 1 < n := by omega
  have mono : ∀ d, c + 1 + d + 1 ≤ n → ∀ v, (before S s₀ (c + 1 + d)).phasor v = true → (before S s₀ (c + 1)).phasor v = true := by
    intro d
    induction d with
    | zero => intro _ v hv; exact hv
    | succ d ih =>
      intro hd v hv
      apply ih (by omega) v
      rw [show c + 1 + (d + 1) = c + 1 + d + 1 from rfl, before_succ, assignBus_eq L _ (by omega)] at hv
      simp only [steal] at hv
      have hupd : ∀ (s : Sensors) w, Function.update s.phasor w false v = true → s.phasor v = true := by
        intro s w hw
        by_cases hvw : v = w
        · subst hvw; simp at hw
        · rwa [Function.update_of_ne hvw] at hw
      split_ifs at hv
      · exact hv
      · exact hv
      · exact hv
      · exact hupd _ _ hv
      · exact hupd _ _ hv
      · exact hv
  obtain ⟨h1, h2, h3⟩ := h
  have i5 := (before_inv (s₀ := s₀) L c (by omega)).2.2.2.2
  -- when the phasor of `w` is taken, nothing is left
  have taken : ∀ w, (before S s₀ c).phasor w = true →
      (before S s₀ (c + 1)).phasor = Function.update (before S s₀ c).phasor w false →
      (∃ v, s₀.phasor v = true) ∧ ∀ v, (before S s₀ m).phasor v = false := by
    intro w hw he
    refine ⟨⟨w, i5 w hw⟩, fun v => ?_⟩
    by_contra hne
    have hv : (before S s₀ m).phasor v = true := by simpa using hne
    obtain ⟨d, rfl⟩ : ∃ d, m = c + 1 + d := ⟨m - (c + 1), by omega⟩
    have := mono d hm v hv
    rw [he] at this
    by_cases hvw : v = w
    · subst hvw; simp at this
    · rw [Function.update_of_ne hvw] at this
      exact hvw (hp v w (i5 v this) (i5 w hw))
  have d0 : diag S c + 1 ≠ diag S c := by omega
  by_cases h4 : (before S s₀ c).phasor c = true
  · right
    refine taken c h4 ?_
    rw [before_succ, assignBus_eq L _ hc']
    simp [steal, h1, h2, h3, h4]
  · by_cases h5 : (before S s₀ c).phasor (c + 1) = true
    · right
      refine taken (c + 1) h5 ?_
      rw [before_succ, assignBus_eq L _ hc']
      simp [steal, h1, h2, h3, h4, h5]
    · left
      refine before_keeps L false m hc hm ?_
      rw [before_succ, assignBus_eq L _ hc']
      simp [Function.update_of_ne d0, steal, h1, h2, h3, h4, h5]

/-- As long as no branch fails, the voltage phasors are not touched. -/
theorem phasor_kept (L : Layout S up n) (m : Nat) (hm : m + 1 ≤ n) (h : ∀ c, c < m → ¬ Fails S s₀ up c) :
    (before S s₀ m).phasor = s₀.phasor := by
  induction m with
  | zero => rfl
  | succ m ih =>
    rw [before_succ, assignBus_eq L _ (by omega), ← ih (by omega) fun c hc => h c (by omega)]
    have hf := h m (by omega)
    unfold Fails at hf
    simp only [steal]
    split_ifs with h1 h2 h3
    · rfl
    · rfl
    · rfl
    · exact absurd ⟨by simpa using h1, by simpa using h2, by simpa using h3⟩ hf
    · exact absurd ⟨by simpa using h1, by simpa using h2, by simpa using h3⟩ hf
    · rfl

/-- If no branch fails, the sensors that the branches take are distinct. -/
theorem assignment (L : Layout S up n) (h : ∀ c, c + 1 < n → ¬ Fails S s₀ up c) :
    Assignment n up (fun b => s₀.flow (diag S b + 1) = true) (fun b => s₀.flow (diag S b) = true) (TakesOwn S s₀)
      (TakesUpper S s₀ up) where
  all := by
    intro b hb
    have h1 := (before_inv (s₀ := s₀) L b (by omega)).1 b (le_refl b) hb
    have hf := h b hb
    unfold Fails at hf
    unfold TakesOwn TakesUpper
    rw [← h1]
    cases h2 : (before S s₀ b).flow (diag S b + 1) <;> cases h3 : (before S s₀ b).flow (diag S b) <;>
      cases h4 : (before S s₀ b).flow (diag S (up b)) <;> simp_all
  ownMeasured := by
    intro b hb ho
    exact (((before_inv (s₀ := s₀) L b (by omega)).2.1 b (le_refl b) (by omega)).mp ho.2).1
  upperMeasured := by
    intro b hb ho
    have hu := L.hup b hb
    exact (((before_inv (s₀ := s₀) L b (by omega)).2.1 (up b) (by omega) hu.2).mp ho.2.2).1
  ownOnce := by
    intro b c hb hc ho huc
    have hu := L.hup c hc
    exact (((before_inv (s₀ := s₀) L b (by omega)).2.1 b (le_refl b) (by omega)).mp ho.2).2 c (by omega) huc
  upperOnce := by
    intro b c hb hc h1 h2 he
    rcases Nat.lt_trichotomy c b with g | g | g
    · have hu := L.hup b hb
      exact absurd h2 ((((before_inv (s₀ := s₀) L b (by omega)).2.1 (up b) (by omega) hu.2).mp h1.2.2).2 c g he)
    · exact g
    · have hu := L.hup c hc
      exact absurd h1 ((((before_inv (s₀ := s₀) L c (by omega)).2.1 (up c) (by omega) hu.2).mp h2.2.2).2 b g he.symm)

theorem count_card (m : Nat) (v : Nat → Bool) : count m v = ((Finset.range m).filter fun k => v k = true).card := by
  unfold count
  induction m with
  | zero => simp
  | succ m ih =>
    rw [List.range_succ, List.countP_append, ih, Finset.range_add_one, Finset.filter_insert]
    by_cases h : v m = true
    · simp [h]
    · simp [h]

/-- If no branch fails, there are at least as many sensors as branches. -/
theorem enough (L : Layout S up n) (h : ∀ c, c + 1 < n → ¬ Fails S s₀ up c) : n - 1 ≤ count S.nnz s₀.flow := by
  classical
  have A := assignment (s₀ := s₀) L h
  let g : Nat → Nat := fun b =>
    if s₀.flow (diag S b + 1) = true then diag S b + 1 else if TakesOwn S s₀ b then diag S b else diag S (up b)
  rw [count_card, ← Finset.card_range (n - 1)]
  have upper : ∀ b, b + 1 < n → ¬ s₀.flow (diag S b + 1) = true → ¬ TakesOwn S s₀ b → TakesUpper S s₀ up b := by
    intro b hb h1 h2
    rcases A.all b hb with h | h | h
    · exact absurd h h1
    · exact absurd h h2
    · exact h
  refine Finset.card_le_card_of_injOn g ?_ ?_
  · intro b hb
    have hb : b + 1 < n := by simp at hb; omega
    have hu := L.hup b hb
    simp only [Finset.coe_filter, Finset.mem_range, Set.mem_setOf_eq, g]
    split_ifs with h1 h2
    · exact ⟨L.lt b hb, h1⟩
    · exact ⟨L.ltd b (by omega), A.ownMeasured b hb h2⟩
    · exact ⟨L.ltd _ hu.2, A.upperMeasured b hb (upper b hb h1 h2)⟩
  · intro b hb c hc he
    have hb : b + 1 < n := by simp at hb; omega
    have hc : c + 1 < n := by simp at hc; omega
    have hub := L.hup b hb
    have huc := L.hup c hc
    simp only [g] at he
    split_ifs at he with h1 h2 h3 h4 h5 h6 h7 h8
    · exact L.inj b c (by omega) (by omega) (by omega)
    · exact absurd he (L.off b c hb (by omega))
    · exact absurd he (L.off b _ hb huc.2)
    · exact absurd he.symm (L.off c b hc (by omega))
    · exact L.inj b c (by omega) (by omega) he
    · exact absurd (upper c hc h5 h6) (A.ownOnce b c hb hc h4 (L.inj b _ (by omega) huc.2 he).symm)
    · exact absurd he.symm (L.off c _ hc hub.2)
    · exact absurd (upper b hb h1 h4) (A.ownOnce c b hc hb h8 (L.inj _ c hub.2 (by omega) he))
    · exact A.upperOnce c b hc hb (upper c hc h7 h8) (upper b hb h1 h4) (L.inj _ _ hub.2 huc.2 he)

/-- All sensors are at the diagonal or right of it. -/
def OnEntries (S : Structure) (n : Nat) (s : Sensors) : Prop :=
  ∀ k, s.flow k = true → (∃ b, b < n ∧ k = diag S b) ∨ ∃ b, b + 1 < n ∧ k = diag S b + 1

/-- What `assign_independent_sensors_radial` leaves. -/
theorem assignRadial_inv (L : Layout S up n) (hn : 0 < n) (he : OnEntries S n s₀) :
    (∀ k, (assignRadial n S s₀).flow k = true → ∃ c, c + 1 < n ∧ k = diag S c + 1) ∧
    (∀ c, c + 1 < n → (assignRadial n S s₀).flow (diag S c + 1) = (before S s₀ (n - 1)).flow (diag S c + 1)) ∧
    (assignRadial n S s₀).phasor = (before S s₀ (n - 1)).phasor := by
  obtain ⟨_, _, i3, i4, _⟩ := before_inv (s₀ := s₀) L (n - 1) (by omega)
  have hdef : assignRadial n S s₀ =
      { before S s₀ (n - 1) with flow := Function.update (before S s₀ (n - 1)).flow (diag S (n - 1)) false } := rfl
  rw [hdef]
  refine ⟨fun k hk => ?_, fun c hc => ?_, rfl⟩
  · by_cases h0 : k = diag S (n - 1)
    · subst h0; simp at hk
    · simp only [Function.update_of_ne h0] at hk
      rcases i3 k hk with h | ⟨c, hc, rfl⟩
      · rcases he k h with ⟨b, hb, rfl⟩ | ⟨b, hb, rfl⟩
        · rcases Nat.lt_or_ge b (n - 1) with h' | h'
          · rw [i4 b h'] at hk; cases hk
          · exact absurd (by rw [show b = n - 1 by omega]) h0
        · exact ⟨b, hb, rfl⟩
      · exact ⟨c, by omega, rfl⟩
  · have d : diag S c + 1 ≠ diag S (n - 1) := L.off c _ hc (by omega)
    simp only [Function.update_of_ne d]

/-- The sufficient condition holds exactly if no branch fails. -/
theorem sufficient_iff (L : Layout S up n) (hn : 0 < n) (he : OnEntries S n s₀)
    (hp : ∀ a b, s₀.phasor a = true → s₀.phasor b = true → a = b) (hpn : ∀ a, s₀.phasor a = true → a < n) :
    sufficientRadial n S s₀ (count n s₀.phasor) = .ok () ↔ ∀ c, c + 1 < n → ¬ Fails S s₀ up c := by
  classical
  obtain ⟨a1, a2, a3⟩ := assignRadial_inv (s₀ := s₀) L hn he
  unfold sufficientRadial
  simp only
  constructor
  · intro h c hc hf
    split_ifs at h with hbad
    apply hbad
    rcases lost_of_fails (m := n - 1) L hp (by omega) (by omega) hf with hl | ⟨⟨v, hv⟩, hl⟩
    · left
      rw [count_card]
      have hsub : ((Finset.range S.nnz).filter fun k => (assignRadial n S s₀).flow k = true) ⊆
          ((Finset.range (n - 1)).erase c).image fun b => diag S b + 1 := by
        intro k hk
        rw [Finset.mem_filter] at hk
        obtain ⟨b, hb, rfl⟩ := a1 k hk.2
        rw [Finset.mem_image]
        refine ⟨b, ?_, rfl⟩
        rw [Finset.mem_erase, Finset.mem_range]
        refine ⟨?_, by omega⟩
        rintro rfl
        rw [a2 b hb, hl] at hk
        exact absurd hk.2 (by decide)
      have h1 := Finset.card_le_card hsub
      have h2 := Finset.card_image_le (s := (Finset.range (n - 1)).erase c) (f := fun b => diag S b + 1)
      rw [Finset.card_erase_of_mem (by simp; omega), Finset.card_range] at h2
      omega
    · right
      constructor
      · rw [count_card]
        apply Finset.card_pos.mpr
        exact ⟨v, by simp [hv, hpn v hv]⟩
      · rw [count_card, a3, Finset.filter_eq_empty_iff.mpr]
        · simp
        · intro k _; simp [hl k]
  · intro h
    rw [if_neg]
    rintro (h1 | ⟨h1, h2⟩)
    · rw [count_card] at h1
      have hsub : ((Finset.range (n - 1)).image fun b => diag S b + 1) ⊆
          (Finset.range S.nnz).filter fun k => (assignRadial n S s₀).flow k = true := by
        intro k hk
        rw [Finset.mem_image] at hk
        obtain ⟨b, hb, rfl⟩ := hk
        have hb : b + 1 < n := by simp at hb; omega
        rw [Finset.mem_filter, Finset.mem_range, a2 b hb]
        exact ⟨L.lt b hb, keeps_of_not_fails L (by omega) (by omega) (h b hb)⟩
      have h2 := Finset.card_le_card hsub
      rw [Finset.card_image_of_injOn, Finset.card_range] at h2
      · omega
      · intro b hb c hc hbc
        simp only [Finset.coe_range, Set.mem_Iio] at hb hc
        exact L.inj b c (by omega) (by omega) (by simpa using hbc)
    · rw [a3, phasor_kept L _ (by omega) fun c hc => h c (by omega)] at h2
      omega

end

end PGM.Observability
