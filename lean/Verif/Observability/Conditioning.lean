import Verif.Observability.Examples

/-!
# When an accepted set of measurements is reported as possibly ill-conditioned (C40)
-/

namespace PGM.Observability

open PGM.YBus

/-- The bus is counted as measured: it has an injection or a voltage phasor, or there is a flow sensor on a branch to a bus with a
higher number. -/
def Sensed (T : Topo) (M : Meas) (v : Nat) : Prop :=
  M.injection v = true ∨ HasPhasor M v ∨
    ∃ (c j : Nat) (b : Option Nat × Option Nat), v < c ∧ T.branches[j]? = some b ∧ Connects b v c ∧ HasFlowSensor M j

theorem scanEntry_any (T : Topo) (S : Structure) (M : Meas) (bus : Nat) (ks : List Nat) :
    ∀ s : Scan × Bool, ((ks.foldl (scanEntry T S M bus) s).2 = true ↔ s.2 = true ∨ ∃ k ∈ ks, found T S M k = true) ∧
      (ks.foldl (scanEntry T S M bus) s).1.ill = s.1.ill := by
  induction ks with
  | nil => intro s; simp
  | cons a ks ih =>
    intro s
    obtain ⟨h1, h2⟩ := ih (scanEntry T S M bus s a)
    rw [List.foldl_cons]
    refine ⟨?_, by rw [h2]; rfl⟩
    rw [h1]
    have : (scanEntry T S M bus s a).2 = true ↔ s.2 = true ∨ found T S M a = true := by
      simp only [scanEntry, found, Bool.or_eq_true]
    rw [this, or_assoc]
    simp only [List.mem_cons, exists_eq_or_imp]

theorem scanBus_ill (T : Topo) (S : Structure) (M : Meas) (s : Scan) (b : Nat) :
    (scanBus T S M s b).ill = true ↔ s.ill = true ∨
      (b + 1 ≠ T.nBus ∧ ¬ (M.injection b = true ∨ HasPhasor M b ∨ ∃ k ∈ upper S b, found T S M k = true)) := by
  obtain ⟨h1, h2⟩ := scanEntry_any T S M b (upper S b) (scanInjection S M b s)
  have e1 : (scanInjection S M b s).2 = true ↔ M.injection b = true := by unfold scanInjection; split_ifs with h <;> simp [h]
  have e2 : (scanInjection S M b s).1.ill = s.ill := by unfold scanInjection; split <;> rfl
  rw [e1] at h1
  rw [e2] at h2
  have e : scanBus T S M s b = scanPhasor T.nBus M b ((upper S b).foldl (scanEntry T S M b) (scanInjection S M b s)) := rfl
  rw [e]
  simp only [scanPhasor, h2, Bool.or_eq_true, Bool.and_eq_true, Bool.not_eq_true', Bool.or_eq_false_iff, decide_eq_true_eq,
    ← Bool.not_eq_true, h1, HasPhasor]
  clear h1 h2 e1 e2 e
  generalize (∃ k ∈ upper S b, found T S M k = true) = Q
  tauto

theorem scan_ill (T : Topo) (S : Structure) (M : Meas) (m : Nat) :
    ((List.range m).foldl (scanBus T S M) Scan.start).ill = true ↔
      ∃ b, b < m ∧ b + 1 ≠ T.nBus ∧ ¬ (M.injection b = true ∨ HasPhasor M b ∨ ∃ k ∈ upper S b, found T S M k = true) := by
  induction m with
  | zero => simp [Scan.start]
  | succ m ih =>
    simp only [List.range_succ, List.foldl_append, List.foldl_cons, List.foldl_nil]
    rw [scanBus_ill, ih]
    constructor
    · rintro (⟨b, hb, h⟩ | h)
      · exact ⟨b, by omega, h⟩
      · exact ⟨m, by omega, h⟩
    · rintro ⟨b, hb, h⟩
      rcases Nat.lt_succ_iff_lt_or_eq.mp hb with hb | rfl
      · exact Or.inl ⟨b, hb, h⟩
      · exact Or.inr h

theorem sensed_iff {T : Topo} {S : Structure} (hv : T.Valid) (hS : build T = some S) (M : Meas) {b : Nat} (hb : b < T.nBus) :
    (M.injection b = true ∨ HasPhasor M b ∨ ∃ k ∈ upper S b, found T S M k = true) ↔ Sensed T M b := by
  obtain ⟨S', hS', I⟩ := structure_correct hv
  rw [hS] at hS'; injection hS' with hS'; subst hS'
  unfold Sensed
  refine or_congr Iff.rfl (or_congr Iff.rfl ⟨?_, ?_⟩)
  · rintro ⟨k, hk, hf⟩
    obtain ⟨c, hc, he⟩ := (mem_upper I hb).mp hk
    obtain ⟨j, x, h1, h2, h3⟩ := (found_iff hv hS M hc he).mp hf
    exact ⟨c, j, x, hc, h1, h2, h3⟩
  · rintro ⟨c, j, x, hc, h1, h2, h3⟩
    obtain ⟨k, he⟩ := (I.y.pattern b hb c).mpr (Or.inr ⟨x, List.mem_of_getElem? h1, h2⟩)
    exact ⟨k, (mem_upper I hb).mpr ⟨c, hc, he⟩, (found_iff hv hS M hc he).mpr ⟨j, x, h1, h2, h3⟩⟩

/-- C40: whenever the check returns, for radial and meshed islands, it reports the measurements as possibly ill-conditioned exactly
if some bus other than the last one is not measured. -/
theorem ill_conditioned_iff {T : Topo} {S : Structure} (hv : T.Valid) (hS : build T = some S) (M : Meas) (radial observable ill : Bool)
    (h : check T radial S M = .returns observable ill) :
    ill = true ↔ ∃ v, v + 1 < T.nBus ∧ ¬ Sensed T M v := by
  have e : ill = (scan T S M).ill := by
    unfold check at h
    split at h
    · cases h
    dsimp only at h
    split at h
    · cases h
    split at h
    · cases h; rfl
    split at h
    · cases h; rfl
    unfold conclude at h
    split at h <;> cases h
    rfl
  rw [e]
  unfold scan
  rw [scan_ill]
  constructor
  · rintro ⟨b, hb, h1, h2⟩
    exact ⟨b, by omega, by rwa [sensed_iff hv hS M hb] at h2⟩
  · rintro ⟨b, hb, h2⟩
    exact ⟨b, by omega, by omega, by rwa [sensed_iff hv hS M (by omega)]⟩

/-- In the example bus 1 is not measured, although the measurements determine the state. -/
example : ∃ v, v + 1 < exTopo.nBus ∧ ¬ Sensed exTopo exMeas v := by
  obtain ⟨S, hS, _⟩ := structure_correct exTopo_valid
  have h := exMeas_accepted
  rw [hS, Option.map_some, Option.some.injEq] at h
  exact (ill_conditioned_iff exTopo_valid hS exMeas true true true h).mp rfl

/-- With a sensor on the branch between buses 2 and 1, at either end, all buses are measured. -/
example : ¬ ∃ v, v + 1 < exTopo.nBus ∧ ¬ Sensed exTopo { exMeas with toPower := fun k => k == 1 } v := by
  obtain ⟨S, hS, _⟩ := structure_correct exTopo_valid
  have h : ((build exTopo).map fun S => check exTopo true S { exMeas with toPower := fun k => k == 1 }) = some (.returns true false) := by
    decide +kernel
  rw [hS, Option.map_some, Option.some.injEq] at h
  intro hv
  exact absurd ((ill_conditioned_iff exTopo_valid hS _ true true false h).mpr hv) (by decide)

end PGM.Observability
