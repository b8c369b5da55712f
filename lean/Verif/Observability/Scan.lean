import Verif.Observability.Spec
import Verif.YBus.Values

/-!
# Observability: what the scan of the sensors finds

Helper lemmas for C40.
-/

namespace PGM.Observability

open PGM.YBus

/-- The diagonal entry of a bus. -/
def diag (S : Structure) (b : Nat) : Nat := S.busEntry[b]?.getD 0

/-- The entries of a row to the right of the diagonal. -/
def upper (S : Structure) (b : Nat) : List Nat := List.range' (diag S b + 1) (S.rowIndptr[b + 1]?.getD 0 - (diag S b + 1))

/-- A flow sensor is found at the entry. -/
def found (T : Topo) (S : Structure) (M : Meas) (k : Nat) : Bool :=
  (elemLoop T M (S.colIndices[k]?.getD 0) (elementsOf S k)).2

theorem elemLoop_found (T : Topo) (M : Meas) (col : Nat) (es : List Elem) :
    (elemLoop T M col es).2 = true ↔ ∃ e ∈ es, e.type ≠ .shunt ∧ M.flow e.idx = true ∧ isConnected T e.idx = true := by
  induction es with
  | nil => simp [elemLoop]
  | cons e es ih =>
    simp only [elemLoop]
    split_ifs with h1 h2
    · rw [ih]; simp [h1]
    · simp only [Bool.and_eq_true] at h2
      simp only [true_iff]
      exact ⟨e, by simp, h1, h2.1, h2.2⟩
    · simp only [ih, List.mem_cons, exists_eq_or_imp]
      simp only [Bool.and_eq_true] at h2
      tauto

theorem scanEntry_fold (T : Topo) (S : Structure) (M : Meas) (bus : Nat) (ks : List Nat) :
    ∀ s : Scan × Bool, (∀ k, (ks.foldl (scanEntry T S M bus) s).1.flow k = true ↔ s.1.flow k = true ∨ (k ∈ ks ∧ found T S M k = true)) ∧
      (ks.foldl (scanEntry T S M bus) s).1.phasor = s.1.phasor ∧ (ks.foldl (scanEntry T S M bus) s).1.total = s.1.total := by
  induction ks with
  | nil => intro s; simp
  | cons a ks ih =>
    intro s
    obtain ⟨h1, h2, h3⟩ := ih (scanEntry T S M bus s a)
    rw [List.foldl_cons]
    refine ⟨fun k => ?_, by rw [h2]; rfl, by rw [h3]; rfl⟩
    rw [h1]
    have : (scanEntry T S M bus s a).1.flow k = true ↔ s.1.flow k = true ∨ (k = a ∧ found T S M k = true) := by
      simp only [scanEntry]
      split_ifs with h
      · by_cases hk : k = a
        · subst hk
          simp only [Function.update_self, true_iff, true_and]
          exact Or.inr h
        · rw [Function.update_of_ne hk]; simp [hk]
      · constructor
        · exact Or.inl
        · rintro (h' | ⟨rfl, h'⟩)
          · exact h'
          · exact absurd h' h
    rw [this, List.mem_cons]
    tauto

theorem scanBus_flow (T : Topo) (S : Structure) (M : Meas) (s : Scan) (b k : Nat) :
    (scanBus T S M s b).flow k = true ↔
      s.flow k = true ∨ (k = diag S b ∧ M.injection b = true) ∨ (k ∈ upper S b ∧ found T S M k = true) := by
  simp only [scanBus, scanPhasor]
  rw [(scanEntry_fold T S M b (List.range' (S.busEntry[b]?.getD 0 + 1) _) (scanInjection S M b s)).1 k]
  have : (scanInjection S M b s).1.flow k = true ↔ s.flow k = true ∨ (k = diag S b ∧ M.injection b = true) := by
    unfold scanInjection
    split_ifs with h
    · by_cases hk : k = diag S b
      · subst hk
        simp [diag, h]
      · have : k ≠ S.busEntry[b]?.getD 0 := hk
        simp only [Function.update_of_ne this]
        simp [hk]
    · simp [h]
  rw [this, or_assoc]
  rfl

theorem scanBus_phasor (T : Topo) (S : Structure) (M : Meas) (s : Scan) (b v : Nat) :
    (scanBus T S M s b).phasor v = true ↔ s.phasor v = true ∨ (v = b ∧ HasPhasor M v) := by
  have h0 : (scanInjection S M b s).1.phasor = s.phasor := by unfold scanInjection; split <;> rfl
  simp only [scanBus, scanPhasor]
  rw [(scanEntry_fold T S M b _ (scanInjection S M b s)).2.1, h0]
  split_ifs with h
  · by_cases hv : v = b
    · subst hv
      simp only [Bool.and_eq_true] at h
      simp [HasPhasor, h]
    · rw [Function.update_of_ne hv]; simp [hv]
  · constructor
    · exact Or.inl
    · rintro (h' | ⟨rfl, h1, h2⟩)
      · exact h'
      · exact absurd (by rw [h1, h2]; rfl) h

theorem wrap8_le {x : Int} (h : 0 ≤ x + 128) : wrap8 x ≤ x := by unfold wrap8; omega

theorem scanBus_total (T : Topo) (S : Structure) (M : Meas) (s : Scan) (b : Nat) :
    (scanBus T S M s b).total = if M.injection b = true then wrap8 (s.total + 1) else s.total := by
  simp only [scanBus, scanPhasor]
  rw [(scanEntry_fold T S M b _ (scanInjection S M b s)).2.2]
  unfold scanInjection
  split <;> rfl

/-- Everything that the scan finds about the buses before `m`. -/
theorem scan_upto (T : Topo) (S : Structure) (M : Meas) (m : Nat) :
    (∀ k, ((List.range m).foldl (scanBus T S M) Scan.start).flow k = true ↔
      ∃ b, b < m ∧ ((k = diag S b ∧ M.injection b = true) ∨ (k ∈ upper S b ∧ found T S M k = true))) ∧
    (∀ v, ((List.range m).foldl (scanBus T S M) Scan.start).phasor v = true ↔ v < m ∧ HasPhasor M v) ∧
    (-128 ≤ ((List.range m).foldl (scanBus T S M) Scan.start).total ∧
      ((List.range m).foldl (scanBus T S M) Scan.start).total ≤ (count m M.injection : Int)) := by
  induction m with
  | zero => simp [Scan.start, count]
  | succ m ih =>
    obtain ⟨i1, i2, i3⟩ := ih
    simp only [List.range_succ, List.foldl_append, List.foldl_cons, List.foldl_nil]
    refine ⟨fun k => ?_, fun v => ?_, ?_⟩
    · rw [scanBus_flow, i1]
      constructor
      · rintro (⟨b, hb, h⟩ | h)
        · exact ⟨b, by omega, h⟩
        · exact ⟨m, by omega, h⟩
      · rintro ⟨b, hb, h⟩
        rcases Nat.lt_succ_iff_lt_or_eq.mp hb with hb | rfl
        · exact Or.inl ⟨b, hb, h⟩
        · exact Or.inr h
    · rw [scanBus_phasor, i2]
      constructor
      · rintro (⟨h1, h2⟩ | ⟨rfl, h⟩)
        · exact ⟨by omega, h2⟩
        · exact ⟨by omega, h⟩
      · rintro ⟨h1, h2⟩
        rcases Nat.lt_succ_iff_lt_or_eq.mp h1 with h1 | rfl
        · exact Or.inl ⟨h1, h2⟩
        · exact Or.inr ⟨rfl, h2⟩
    · rw [scanBus_total]
      have hc : (count (m + 1) M.injection : Int) = count m M.injection + if M.injection m = true then 1 else 0 := by
        unfold count
        rw [List.range_succ, List.countP_append]
        by_cases h : M.injection m = true <;> simp [h]
      rw [hc]
      split_ifs with h
      · have := wrap8_le (x := ((List.range m).foldl (scanBus T S M) Scan.start).total + 1) (by omega)
        refine ⟨?_, by omega⟩
        unfold wrap8
        omega
      · omega

/-! ## The entries of the matrix -/

section
variable {n : Nat} {ip cols : List Nat} {pat : Nat → Nat → Prop}

theorem csr_mono (I : IsCsr n ip cols pat) {r r' a a' : Nat} (h : r ≤ r') (hn : r' ≤ n) (ha : ip[r]? = some a) (ha' : ip[r']? = some a') :
    a ≤ a' := by
  obtain ⟨d, rfl⟩ : ∃ d, r' = r + d := ⟨r' - r, by omega⟩
  clear h
  induction d generalizing a' with
  | zero => rw [Nat.add_zero, ha] at ha'; injection ha' with ha'; omega
  | succ d ih =>
    obtain ⟨x, z, h1, h2, h3⟩ := I.mono (r + d) (by omega)
    have := ih (by omega) h1
    rw [show r + d + 1 = r + (d + 1) from rfl, ha'] at h2
    injection h2 with h2
    omega

/-- An entry is at one place only. -/
theorem entry_unique (I : IsCsr n ip cols pat) {r c r' c' k : Nat} (h : EntryAt ip cols r c k) (h' : EntryAt ip cols r' c' k) :
    r = r' ∧ c = c' := by
  have hlt : ∀ {r c k}, EntryAt ip cols r c k → r < n := by
    rintro r c k ⟨a, z, _, h2, _⟩
    have := (List.getElem?_eq_some_iff.mp h2).1
    rw [I.len] at this; omega
  have hr := hlt h
  have hr' := hlt h'
  obtain ⟨a, z, h1, h2, h3, h4, h5⟩ := h
  obtain ⟨a', z', k1, k2, k3, k4, k5⟩ := h'
  refine ⟨?_, by rw [h5] at k5; injection k5⟩
  rcases Nat.lt_trichotomy r r' with g | g | g
  · have := csr_mono I (r := r + 1) (r' := r') (by omega) (by omega) h2 k1
    omega
  · exact g
  · have := csr_mono I (r := r' + 1) (r' := r) (by omega) (by omega) k2 h1
    omega

/-- A position has one entry only. -/
theorem entry_inj (I : IsCsr n ip cols pat) {r c k k' : Nat} (h : EntryAt ip cols r c k) (h' : EntryAt ip cols r c k') : k = k' := by
  rcases Nat.lt_trichotomy k k' with g | g | g
  · exact absurd (I.sorted r c k c k' h h' g) (lt_irrefl c)
  · exact g
  · exact absurd (I.sorted r c k' c k h' h g) (lt_irrefl c)

/-- Every place in a row is an entry. -/
theorem entry_exists (I : IsCsr n ip cols pat) {r a z k : Nat} (hr : r < n) (h1 : ip[r]? = some a) (h2 : ip[r + 1]? = some z)
    (h3 : a ≤ k) (h4 : k < z) : ∃ c, EntryAt ip cols r c k := by
  have hz := csr_mono I (r := r + 1) (r' := n) (by omega) (le_refl n) h2 I.last
  have hk : k < cols.length := by omega
  exact ⟨cols[k], a, z, h1, h2, h3, h4, List.getElem?_eq_getElem hk⟩

end

variable {T : Topo} {S : Structure}

theorem diag_entry (I : IsStructure T S) {b : Nat} (hb : b < T.nBus) : EntryAt S.rowIndptr S.colIndices b b (diag S b) := by
  obtain ⟨k, h1, h2⟩ := I.bus.2 b hb
  unfold diag
  rw [h1]
  exact h2

theorem mem_upper (I : IsStructure T S) {b k : Nat} (hb : b < T.nBus) :
    k ∈ upper S b ↔ ∃ c, b < c ∧ EntryAt S.rowIndptr S.colIndices b c k := by
  have hd := diag_entry I hb
  obtain ⟨a, z, h1, h2, h3, h4, h5⟩ := id hd
  unfold upper
  rw [List.mem_range'_1, h2]
  simp only [Option.getD_some]
  constructor
  · intro hk
    obtain ⟨c, hc⟩ := entry_exists I.y hb h1 h2 (k := k) (by omega) (by omega)
    exact ⟨c, I.y.sorted b b _ c k hd hc (by omega), hc⟩
  · rintro ⟨c, hc, he⟩
    obtain ⟨a', z', k1, k2, k3, k4, k5⟩ := id he
    rw [h2] at k2
    injection k2 with k2
    have : diag S b < k := by
      rcases Nat.lt_trichotomy (diag S b) k with g | g | g
      · exact g
      · rw [← g, h5] at k5; injection k5; omega
      · have := I.y.sorted b c k b _ he hd g; omega
    omega

theorem isConnected_iff {k : Nat} : isConnected T k = true ↔ ∃ f t, T.branches[k]? = some (some f, some t) := by
  unfold isConnected
  split
  · rename_i f t h; simp [h]
  · rename_i h
    simp only [Bool.false_eq_true, false_iff, not_exists]
    intro f t h'
    exact h f t h'

theorem flow_iff {M : Meas} {k : Nat} : M.flow k = true ↔ HasFlowSensor M k := by
  unfold Meas.flow HasFlowSensor
  simp only [Bool.or_eq_true, or_assoc]

/-- At an entry above the diagonal a flow sensor is found exactly if one of the branches between the buses has one. -/
theorem found_iff (hv : T.Valid) (hS : build T = some S) (M : Meas) {r c k : Nat} (hrc : r < c)
    (he : EntryAt S.rowIndptr S.colIndices r c k) :
    found T S M k = true ↔ ∃ (j : Nat) (b : Option Nat × Option Nat), T.branches[j]? = some b ∧ Connects b r c ∧ HasFlowSensor M j := by
  unfold found
  rw [elemLoop_found, (entry_elements hv hS he).2]
  simp only [List.mem_map, at_, List.mem_filter, decide_eq_true_eq]
  constructor
  · rintro ⟨e, ⟨x, ⟨hx, hp⟩, rfl⟩, h1, h2, h3⟩
    rw [mem_collect] at hx
    rcases hx with ⟨b, j, hb, hx⟩ | ⟨b, j, _, _, rfl⟩ | ⟨f, j, hf, hx⟩
    · rw [mem_branchElems] at hx
      rcases hx with ⟨f, e1, rfl⟩ | ⟨f, t, e1, e2, rfl⟩ | ⟨f, t, e1, e2, rfl⟩ | ⟨t, e1, rfl⟩
      · simp only [Prod.mk.injEq] at hp; omega
      · simp only [Prod.mk.injEq] at hp
        exact ⟨j, b, hb, Or.inl (Prod.ext (by rw [e1, hp.1]) (by rw [e2, hp.2])), flow_iff.mp h2⟩
      · simp only [Prod.mk.injEq] at hp
        exact ⟨j, b, hb, Or.inr (Prod.ext (by rw [e1, hp.2]) (by rw [e2, hp.1])), flow_iff.mp h2⟩
      · simp only [Prod.mk.injEq] at hp; omega
    · exact absurd rfl h1
    · have hc : InY T r c := by
        have hr : r < T.nBus := by
          obtain ⟨S', hS', I⟩ := structure_correct hv
          rw [hS] at hS'; injection hS' with hS'; subst hS'
          obtain ⟨_, _, _, g2, _⟩ := he
          have := (List.getElem?_eq_some_iff.mp g2).1
          rw [I.y.len] at this; omega
        obtain ⟨S', hS', I⟩ := structure_correct hv
        rw [hS] at hS'; injection hS' with hS'; subst hS'
        exact (I.y.pattern r hr c).mp ⟨k, he⟩
      rcases hc with rfl | ⟨b, hb, hcon⟩
      · omega
      · exfalso
        have hfn := hv.fillNew f (List.mem_of_getElem? hf) b hb
        simp only [fillElems, List.mem_cons, List.not_mem_nil, or_false] at hx
        rcases hx with rfl | rfl <;> simp only [Prod.mk.injEq] at hp
        · rw [hp.1, hp.2] at hfn; exact hfn hcon
        · rw [hp.1, hp.2] at hfn
          exact hfn (by unfold Connects at hcon ⊢; tauto)
  · rintro ⟨j, b, hb, hc, hf⟩
    rcases hc with rfl | rfl
    · refine ⟨⟨.ft, j⟩, ⟨⟨(r, c), ⟨.ft, j⟩⟩, ⟨?_, rfl⟩, rfl⟩, by simp, flow_iff.mpr hf, isConnected_iff.mpr ⟨_, _, hb⟩⟩
      rw [mem_collect]
      exact Or.inl ⟨_, j, hb, mem_branchElems.mpr (Or.inr (Or.inl ⟨r, c, rfl, rfl, rfl⟩))⟩
    · refine ⟨⟨.tf, j⟩, ⟨⟨(r, c), ⟨.tf, j⟩⟩, ⟨?_, rfl⟩, rfl⟩, by simp, flow_iff.mpr hf, isConnected_iff.mpr ⟨_, _, hb⟩⟩
      rw [mem_collect]
      exact Or.inl ⟨_, j, hb, mem_branchElems.mpr (Or.inr (Or.inr (Or.inl ⟨c, r, rfl, rfl, rfl⟩)))⟩

end PGM.Observability
