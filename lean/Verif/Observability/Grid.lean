import Verif.Observability.Radial
import Mathlib.Tactic.FieldSimp

/-!
# Observability: voltages and flows in a radial grid

Helper lemmas for C40: the injections of the specification in terms of the tree, and the layout of the admittance matrix.
-/

namespace PGM.Observability

open PGM.YBus Finset

variable {K : Type} [Field K]

/-! ## Injections -/

/-- The admittance that one branch adds between two buses. -/
def between (y : Nat → K) (a b : Nat) (k : (Option Nat × Option Nat) × Nat) : K :=
  if k.1 = (some a, some b) ∨ k.1 = (some b, some a) then y k.2 else 0

theorem between_comm (y : Nat → K) (a b : Nat) (k : (Option Nat × Option Nat) × Nat) : between y a b k = between y b a k := by
  unfold between; simp only [or_comm]

theorem taken_eq (n : Nat) (y U : Nat → K) (v : Nat) (k : (Option Nat × Option Nat) × Nat)
    (hk : (∀ f, k.1.1 = some f → f < n) ∧ (∀ t, k.1.2 = some t → t < n)) :
    taken y U v k = ∑ c ∈ range n, between y v c k * (U v - U c) := by
  obtain ⟨⟨f, t⟩, j⟩ := k
  rcases f with _ | f
  · rw [sum_eq_zero]
    · rfl
    · intro c _; simp [between]
  rcases t with _ | t
  · rw [sum_eq_zero]
    · rfl
    · intro c _; simp [between]
  have hf := hk.1 f rfl
  have ht := hk.2 t rfl
  simp only [taken, between, Prod.mk.injEq, Option.some.injEq]
  by_cases h1 : f = v
  · subst h1
    rw [sum_eq_single t]
    · by_cases h2 : t = f
      · subst h2; simp
      · simp [h2]
    · intro c _ hc
      by_cases h2 : t = f
      · subst h2; simp [hc.symm]
      · simp [hc.symm, h2]
    · intro h; simp at h; omega
  · by_cases h2 : t = v
    · subst h2
      rw [sum_eq_single f]
      · simp [h1]
      · intro c _ hc
        simp [h1, hc.symm]
      · intro h; simp at h; omega
    · rw [sum_eq_zero]
      · simp [h1, h2]
      · intro c _; simp [h1, h2]

theorem injected_list (n : Nat) (y U : Nat → K) (v : Nat) (l : List ((Option Nat × Option Nat) × Nat))
    (hl : ∀ k ∈ l, (∀ f, k.1.1 = some f → f < n) ∧ (∀ t, k.1.2 = some t → t < n)) :
    (l.map (taken y U v)).sum = ∑ c ∈ range n, (l.map (between y v c)).sum * (U v - U c) := by
  induction l with
  | nil => simp
  | cons k l ih =>
    simp only [List.map_cons, List.sum_cons, add_mul, sum_add_distrib]
    rw [taken_eq n y U v k (hl k (by simp)), ih fun k hk => hl k (by simp [hk])]

theorem injected_eq {T : Topo} (hv : T.Valid) (y U : Nat → K) (v : Nat) :
    injected T y U v = ∑ c ∈ range T.nBus, together T y v c * (U v - U c) := by
  unfold injected together
  refine injected_list T.nBus y U v _ fun k hk => ?_
  have := List.mem_zipIdx hk
  exact hv.branchRange k.1 (by rw [this.2.2]; exact List.getElem_mem _)

theorem together_comm (T : Topo) (y : Nat → K) (a b : Nat) : together T y a b = together T y b a := by
  unfold together
  congr 2
  funext k
  exact between_comm y a b k

theorem together_zero {T : Topo} (y : Nat → K) {a b : Nat} (h : ¬ ∃ c ∈ T.branches, Connects c a b) : together T y a b = 0 := by
  unfold together
  apply List.sum_eq_zero
  intro x hx
  rw [List.mem_map] at hx
  obtain ⟨k, hk, rfl⟩ := hx
  have hm := List.mem_zipIdx hk
  rw [if_neg]
  intro hc
  exact h ⟨k.1, by rw [hm.2.2]; exact List.getElem_mem _, hc⟩

/-- The bus above each bus. -/
structure IsUp (T : Topo) (up : Nat → Nat) : Prop where
  lt : ∀ r, r + 1 < T.nBus → r < up r ∧ up r < T.nBus
  con : ∀ r, r + 1 < T.nBus → ∃ b ∈ T.branches, Connects b r (up r)
  only : ∀ r, r + 1 < T.nBus → ∀ c, r < c → (∃ b ∈ T.branches, Connects b r c) → c = up r

theorem connects_lt {T : Topo} (hv : T.Valid) {b : Option Nat × Option Nat} (hb : b ∈ T.branches) {r c : Nat} (h : Connects b r c) :
    r < T.nBus ∧ c < T.nBus := by
  have := hv.branchRange b hb
  rcases h with rfl | rfl
  · exact ⟨this.1 _ rfl, this.2 _ rfl⟩
  · exact ⟨this.2 _ rfl, this.1 _ rfl⟩

theorem exists_up {T : Topo} (hv : T.Valid) (hr : Radial T) : ∃ up, IsUp T up := by
  classical
  refine ⟨fun r => if h : r + 1 < T.nBus then (hr r h).choose else 0, ?_, ?_, ?_⟩
  · intro r h
    simp only [dif_pos h]
    obtain ⟨h1, ⟨b, hb, hc⟩, _⟩ := (hr r h).choose_spec
    exact ⟨h1, (connects_lt hv hb hc).2⟩
  · intro r h
    simp only [dif_pos h]
    exact (hr r h).choose_spec.2.1
  · intro r h
    simp only [dif_pos h]
    exact (hr r h).choose_spec.2.2

/-- The flow in the branches above a bus. -/
def above (T : Topo) (up : Nat → Nat) (y U : Nat → K) (b : Nat) : K := together T y b (up b) * (U b - U (up b))

theorem injected_net {T : Topo} (hv : T.Valid) {up : Nat → Nat} (hu : IsUp T up) (y U : Nat → K) {v : Nat} (hvn : v < T.nBus) :
    injected T y U v = net T.nBus up (above T up y U) v := by
  rw [injected_eq hv]
  have hsplit : ∀ c ∈ range T.nBus, together T y v c * (U v - U c) =
      (if v + 1 < T.nBus ∧ c = up v then above T up y U v else 0) - (if c + 1 < T.nBus ∧ up c = v then above T up y U c else 0) := by
    intro c hc
    rw [mem_range] at hc
    rcases Nat.lt_trichotomy v c with g | g | g
    · have h2 : ¬ (c + 1 < T.nBus ∧ up c = v) := by
        rintro ⟨h, rfl⟩; have := (hu.lt c h).1; omega
      rw [if_neg h2, sub_zero]
      by_cases h : v + 1 < T.nBus ∧ c = up v
      · rw [if_pos h]
        obtain ⟨_, rfl⟩ := h
        rfl
      · rw [if_neg h, together_zero, zero_mul]
        intro hcon
        exact h ⟨by omega, hu.only v (by omega) c g hcon⟩
    · subst g
      have h1 : ¬ (v + 1 < T.nBus ∧ v = up v) := by
        rintro ⟨h, he⟩; have := (hu.lt v h).1; omega
      have h2 : ¬ (v + 1 < T.nBus ∧ up v = v) := by
        rintro ⟨h, he⟩; have := (hu.lt v h).1; omega
      rw [if_neg h1, if_neg h2, sub_self, mul_zero, sub_zero]
    · have h1 : ¬ (v + 1 < T.nBus ∧ c = up v) := by
        rintro ⟨h, rfl⟩; have := (hu.lt v h).1; omega
      rw [if_neg h1, zero_sub]
      by_cases h : c + 1 < T.nBus ∧ up c = v
      · rw [if_pos h]
        obtain ⟨_, rfl⟩ := h
        unfold above
        rw [together_comm]; ring
      · rw [if_neg h, neg_zero, together_zero, zero_mul]
        rintro ⟨b, hb, hcon⟩
        have hsw : Connects b c v := by unfold Connects at hcon ⊢; tauto
        exact h ⟨by omega, (hu.only c (by omega) v g ⟨b, hb, hsw⟩).symm⟩
  rw [sum_congr rfl hsplit, sum_sub_distrib]
  unfold net
  congr 1
  · by_cases h : v + 1 < T.nBus
    · simp only [h, true_and, if_true]
      rw [sum_ite_eq', if_pos (by rw [mem_range]; exact (hu.lt v h).2)]
    · simp only [h, false_and, if_false, sum_const_zero]
  · obtain ⟨m, hm⟩ : ∃ m, T.nBus = m + 1 := ⟨T.nBus - 1, by omega⟩
    rw [hm, Nat.add_sub_cancel, sum_range_succ, if_neg (by omega), add_zero]
    refine sum_congr rfl fun c hc => ?_
    rw [mem_range] at hc
    have : c + 1 < m + 1 := by omega
    simp only [this, true_and]

/-- The branches above a bus are measured. -/
def BranchMeasured (T : Topo) (M : Meas) (up : Nat → Nat) (b : Nat) : Prop :=
  ∃ (j : Nat) (c : Option Nat × Option Nat), T.branches[j]? = some c ∧ Connects c b (up b) ∧ HasFlowSensor M j

/-- Voltages with given flows. -/
def voltages (n : Nat) (up : Nat → Nat) (g : Nat → K) : Nat → Nat → K
  | 0, _ => 0
  | k + 1, v => if v + 1 < n then g v + voltages n up g k (up v) else 0

theorem voltages_stable (n : Nat) (up : Nat → Nat) (hup : ∀ b, b + 1 < n → b < up b ∧ up b < n) (g : Nat → K) :
    ∀ k v, n ≤ v + k + 1 → v < n → voltages n up g k v = voltages n up g (k + 1) v := by
  intro k
  induction k with
  | zero => intro v h hv; simp only [voltages]; rw [if_neg (by omega)]
  | succ k ih =>
    intro v h hv
    simp only [voltages]
    by_cases hv1 : v + 1 < n
    · rw [if_pos hv1, if_pos hv1]
      have := hup v hv1
      rw [ih (up v) (by omega) this.2]
      simp only [voltages]
    · rw [if_neg hv1, if_neg hv1]

theorem exists_voltages (n : Nat) (up : Nat → Nat) (hup : ∀ b, b + 1 < n → b < up b ∧ up b < n) (g : Nat → K) :
    ∃ U : Nat → K, ∀ b, b + 1 < n → U b - U (up b) = g b := by
  refine ⟨voltages n up g n, fun b hb => ?_⟩
  have hu := hup b hb
  rw [voltages_stable n up hup g n b (by omega) (by omega)]
  simp only [voltages]
  rw [if_pos hb]
  ring

/-- Without flow all voltages are equal. -/
theorem equal_of_zero {n : Nat} {up : Nat → Nat} (hup : ∀ b, b + 1 < n → b < up b ∧ up b < n) {U : Nat → K}
    (h : ∀ b, b + 1 < n → U b = U (up b)) : ∀ a b, a < n → b < n → U a = U b := by
  have key : ∀ d a, a + d = n → a < n → U a = U (n - 1) := by
    intro d
    induction d using Nat.strong_induction_on with
    | _ d ih =>
      intro a hd ha
      by_cases h1 : a + 1 < n
      · have := hup a h1
        rw [h a h1]
        exact ih (n - up a) (by omega) _ (by omega) this.2
      · rw [show a = n - 1 by omega]
  intro a b ha hb
  rw [key (n - a) a (by omega) ha, key (n - b) b (by omega) hb]

/-- The measurements determine the voltages if no flow is unseen. -/
theorem determined_of {T : Topo} (hv : T.Valid) {up : Nat → Nat} (hu : IsUp T up) (M : Meas) {y : Nat → K} (hy : Proper T y)
    (h : ∀ f : Nat → K, (∀ b, b + 1 < T.nBus → BranchMeasured T M up b → f b = 0) →
      (∀ v, v < T.nBus → M.injection v = true → net T.nBus up f v = 0) → ∀ b, b + 1 < T.nBus → f b = 0) : Determined T M y := by
  intro U hU
  refine equal_of_zero hu.lt fun b hb => ?_
  have h0 : above T up y U b = 0 := by
    refine h (above T up y U) ?_ ?_ b hb
    · rintro b hb ⟨j, c, hj, hc, hs⟩
      have hd : U b - U (up b) = 0 := by
        rcases hc with rfl | rfl
        · have := hU.branch j b (up b) hj hs
          exact (mul_eq_zero.mp this).resolve_left (hy.branch j _ _ hj)
        · have := hU.branch j (up b) b hj hs
          have := (mul_eq_zero.mp this).resolve_left (hy.branch j _ _ hj)
          rw [sub_eq_zero] at this ⊢
          exact this.symm
      unfold above
      rw [hd, mul_zero]
    · intro v hvn hm
      rw [← injected_net hv hu y U hvn]
      exact hU.bus v hvn hm
  have hne := hy.parallel b (up b) (by have := (hu.lt b hb).1; omega) (hu.con b hb)
  have := (mul_eq_zero.mp h0).resolve_left hne
  exact sub_eq_zero.mp this

/-- They do not if there is an unseen flow. -/
theorem not_determined_of {T : Topo} (hv : T.Valid) {up : Nat → Nat} (hu : IsUp T up) (M : Meas) {y : Nat → K} (hy : Proper T y)
    {f : Nat → K} {b : Nat} (hb : b + 1 < T.nBus) (hf : f b ≠ 0) (h1 : ∀ b, b + 1 < T.nBus → BranchMeasured T M up b → f b = 0)
    (h2 : ∀ v, v < T.nBus → M.injection v = true → net T.nBus up f v = 0) : ¬ Determined T M y := by
  intro hD
  obtain ⟨U, hU⟩ := exists_voltages T.nBus up hu.lt fun b => f b / together T y b (up b)
  have hne : ∀ b, b + 1 < T.nBus → together T y b (up b) ≠ 0 := fun b hb =>
    hy.parallel b (up b) (by have := (hu.lt b hb).1; omega) (hu.con b hb)
  have habove : ∀ b, b + 1 < T.nBus → above T up y U b = f b := by
    intro b hb
    unfold above
    rw [hU b hb, mul_div_cancel₀ _ (hne b hb)]
  have := hD U ⟨?_, ?_⟩ b (up b) (by omega) (hu.lt b hb).2
  · have h := habove b hb
    unfold above at h
    rw [this, sub_self, mul_zero] at h
    exact hf h.symm
  · intro k p q hk hs
    -- the ends of the branch in order
    have main : ∀ r c, r < c → Connects (some p, some q) r c → U r - U c = 0 := by
      intro r c hrc hcon
      have hm : (some p, some q) ∈ T.branches := List.mem_of_getElem? hk
      have hlt := connects_lt hv hm hcon
      have hc := hu.only r (by omega) c hrc ⟨_, hm, hcon⟩
      subst hc
      rw [hU r (by omega), h1 r (by omega) ⟨k, _, hk, hcon, hs⟩, zero_div]
    rcases Nat.lt_trichotomy p q with g | g | g
    · rw [main p q g (Or.inl rfl), mul_zero]
    · rw [g, sub_self, mul_zero]
    · have := main q p g (Or.inr rfl)
      rw [sub_eq_zero] at this
      rw [this, sub_self, mul_zero]
  · intro v hvn hm
    rw [injected_net hv hu y U hvn]
    have : net T.nBus up (above T up y U) v = net T.nBus up f v := by
      unfold net
      congr 1
      · split
        · exact habove v ‹_›
        · rfl
      · refine sum_congr rfl fun c hc => ?_
        rw [habove c (by simp at hc; omega)]
    rw [this]
    exact h2 v hvn hm

/-! ## The layout of the matrix -/

theorem nnz_gt {T : Topo} {S : Structure} (hv : T.Valid) (hS : build T = some S) {r c k : Nat}
    (he : EntryAt S.rowIndptr S.colIndices r c k) : k < S.nnz := (entry_elements hv hS he).1

theorem above_entry {T : Topo} {S : Structure} (I : IsStructure T S) {up : Nat → Nat} (hu : IsUp T up) {b : Nat} (hb : b + 1 < T.nBus) :
    EntryAt S.rowIndptr S.colIndices b (up b) (diag S b + 1) := by
  have hlt := hu.lt b hb
  have hbn : b < T.nBus := by omega
  obtain ⟨k, hk⟩ := (I.y.pattern b hbn (up b)).mpr (Or.inr (hu.con b hb))
  have hd := diag_entry I hbn
  have hku := (mem_upper I hbn).mpr ⟨up b, hlt.1, hk⟩
  have hku' := hku
  unfold upper at hku'
  rw [List.mem_range'_1] at hku'
  have hmem : diag S b + 1 ∈ upper S b := by
    unfold upper; rw [List.mem_range'_1]; omega
  obtain ⟨c, hc, he⟩ := (mem_upper I hbn).mp hmem
  have : InY T b c := (I.y.pattern b hbn c).mp ⟨_, he⟩
  rcases this with h | h
  · omega
  · rwa [← hu.only b hb c hc h]

theorem layout {T : Topo} {S : Structure} (hv : T.Valid) (hS : build T = some S) (I : IsStructure T S) {up : Nat → Nat}
    (hu : IsUp T up) : Layout S up T.nBus where
  hup := hu.lt
  col := by
    intro b hb
    obtain ⟨_, _, _, _, _, _, h⟩ := above_entry I hu hb
    rw [h]; rfl
  inj := by
    intro b c hb hc h
    have h1 := diag_entry I hb
    have h2 := diag_entry I hc
    rw [h] at h1
    exact (entry_unique I.y h1 h2).1
  off := by
    intro b c hb hc h
    have h1 := above_entry I hu hb
    have h2 := diag_entry I hc
    rw [h] at h1
    have := entry_unique I.y h1 h2
    have := (hu.lt b hb).1
    omega
  lt := fun b hb => nnz_gt hv hS (above_entry I hu hb)
  ltd := fun b hb => nnz_gt hv hS (diag_entry I hb)

/-- What the scan finds in a radial grid. -/
theorem scan_radial {T : Topo} {S : Structure} (hv : T.Valid) (hS : build T = some S) (I : IsStructure T S) {up : Nat → Nat}
    (hu : IsUp T up) (M : Meas) :
    (∀ b, b < T.nBus → ((scan T S M).flow (diag S b) = true ↔ M.injection b = true)) ∧
    (∀ b, b + 1 < T.nBus → ((scan T S M).flow (diag S b + 1) = true ↔ BranchMeasured T M up b)) ∧
    OnEntries S T.nBus ⟨(scan T S M).flow, (scan T S M).phasor⟩ := by
  have hf := (scan_upto T S M T.nBus).1
  refine ⟨fun b hb => ?_, fun b hb => ?_, fun k hk => ?_⟩
  · unfold scan
    rw [hf]
    constructor
    · rintro ⟨c, hc, ⟨h1, h2⟩ | ⟨h1, h2⟩⟩
      · have := (entry_unique I.y (h1 ▸ diag_entry I hb) (diag_entry I hc)).1
        subst this; exact h2
      · obtain ⟨d, hd, he⟩ := (mem_upper I hc).mp h1
        have := entry_unique I.y he (diag_entry I hb)
        omega
    · intro h
      exact ⟨b, hb, Or.inl ⟨rfl, h⟩⟩
  · unfold scan
    rw [hf]
    have he := above_entry I hu hb
    have hlt := hu.lt b hb
    constructor
    · rintro ⟨c, hc, ⟨h1, h2⟩ | ⟨h1, h2⟩⟩
      · have := entry_unique I.y (h1 ▸ he) (diag_entry I hc)
        omega
      · obtain ⟨j, d, hj, hcon, hs⟩ := (found_iff hv hS M hlt.1 he).mp h2
        exact ⟨j, d, hj, hcon, hs⟩
    · rintro ⟨j, d, hj, hcon, hs⟩
      refine ⟨b, by omega, Or.inr ⟨(mem_upper I (by omega)).mpr ⟨_, hlt.1, he⟩, ?_⟩⟩
      exact (found_iff hv hS M hlt.1 he).mpr ⟨j, d, hj, hcon, hs⟩
  · unfold scan at hk
    obtain ⟨b, hb, ⟨h1, _⟩ | ⟨h1, _⟩⟩ := (hf k).mp hk
    · exact Or.inl ⟨b, hb, h1⟩
    · obtain ⟨c, hc, he⟩ := (mem_upper I hb).mp h1
      rcases (I.y.pattern b hb c).mp ⟨_, he⟩ with h | h
      · omega
      · obtain ⟨d, hd, hcon⟩ := h
        have hlt := connects_lt hv hd hcon
        have hb' : b + 1 < T.nBus := by omega
        have := hu.only b hb' c hc ⟨d, hd, hcon⟩
        subst this
        exact Or.inr ⟨b, hb', entry_inj I.y he (above_entry I hu hb')⟩

end PGM.Observability
