import Verif.Reports.RegulatorCalc
import Verif.Output.Examples

/-!
# A concrete grid for C63

Transformer 10 between nodes 1 and 2 with tap regulator 20, transformer 11 with tap regulator 21, generator 5 with voltage regulator 22, generator 6, which is in no island, with voltage regulator 23, and fault 40.
-/

namespace PGM.Reports

open PGM.Container PGM.Input PGM.Update PGM.Topology PGM.PowerFlow PGM.Output

/-- The input of the example. -/
def regD : CompType → List (Elem Unit)
  | .node => [exEl 1 0 0 0 0 0, exEl 2 0 0 0 0 0]
  | .transformer => [exEl 10 1 2 0 0 0, exEl 11 1 2 0 0 0]
  | .symGen => [exEl 6 2 0 0 0 0]
  | .symLoad => [exEl 5 2 0 0 0 0]
  | .tapRegulator => [exEl 20 0 0 0 10 0, exEl 21 0 0 0 11 0]
  | .voltageRegulator => [exEl 22 0 0 0 5 0, exEl 23 0 0 0 6 0]
  | .fault => [exEl 40 0 0 0 2 0]
  | _ => []

/-- The places of the example. -/
def regO : Objects := { exO with loadGen := fun s => if s = 1 then some (0, 0) else none }

theorem reg_build : ∃ c, build regD = .ok c := by
  have : (match build regD with | .ok _ => true | .error _ => false) = true := by decide +kernel
  cases h : build regD with
  | ok c => exact ⟨c, rfl⟩
  | error e => rw [h] at this; cases this

/-- Transformer 11 was set to tap 3; regulator 20 did not take part. -/
example (c : Container (Comp Unit)) (h : build regD = .ok c) :
    (∃ r, (tapRegRecords c [(11, 3)])[1]? = some (some r) ∧ r.tapPos = some 3) ∧ ∃ r, (tapRegRecords c [(11, 3)])[0]? = some (some r) ∧ r.tapPos = none := by
  constructor
  · obtain ⟨r, h1, _, h2, _⟩ := (tap_regulators h [(11, 3)] (by simp)).2 1 (exEl 21 0 0 0 11 0) rfl
    exact ⟨r, h1, (h2 3 (by simp [exEl])).2⟩
  · obtain ⟨r, h1, _, _, h2⟩ := (tap_regulators h [(11, 3)] (by simp)).2 0 (exEl 20 0 0 0 10 0) rfl
    exact ⟨r, h1, (h2 (by simp [exEl])).2⟩

/-- The optimiser numbers the transformers 0 and 1. -/
example (c : Container (Comp Unit)) (h : build regD = .ok c) (C : TapOpt.Cfg ℚ) (hC : C.order = [[1], [0]]) (s : TapOpt.St) (v : TapOpt.Volt ℚ) :
    ∃ r, (tapRegRecords c ((TapOpt.produceOutput C s v).taps.map fun p => (((p.1 : Int) + 10), p.2)))[1]? = some (some r) ∧ r.id = 21 ∧ r.energized = true ∧ r.tapPos = some (s.pos 1) :=
  tap_regulator_position h C s v (fun n => (n : Int) + 10) (by simp [hC]) 1 (exEl 21 0 0 0 11 0) rfl 1 (by simp [hC]) rfl

/-- Regulator 22 reports the violation of its generator, regulator 23 is not energised. -/
example (c : Container (Comp Unit)) (h : build regD = .ok c) :
    (∃ r, (voltRegRecords exA c regO [[⟨7, true, 0⟩, ⟨5, true, 2⟩]])[0]? = some (some r) ∧ r.energized = true ∧ r.limit = 2) ∧
      ∃ r, (voltRegRecords exA c regO [[⟨7, true, 0⟩, ⟨5, true, 2⟩]])[1]? = some (some r) ∧ r.energized = false := by
  have hv := (voltage_regulators h exA regO [[⟨7, true, 0⟩, ⟨5, true, 2⟩]] (by intro s m h0; simp only [regO] at h0; split_ifs at h0 <;> cases h0; simp) (by simp)).2
  have only : ∀ (t : CompType) (k : Nat) (e : Elem Unit), t ∈ [CompType.symGen, .asymGen, .symLoad, .asymLoad] → (regD t)[k]? = some e →
      (t = .symGen ∧ k = 0 ∧ e = exEl 6 2 0 0 0 0) ∨ (t = .symLoad ∧ k = 0 ∧ e = exEl 5 2 0 0 0 0) := by
    intro t k e ht hk
    simp only [List.mem_cons, List.not_mem_nil, or_false] at ht
    rcases ht with rfl | rfl | rfl | rfl <;> rcases k with _ | k <;> simp [regD] at hk ⊢ <;> exact hk.symm
  constructor
  · obtain ⟨r, h1, _, t', k', e', ht', hk', hid, _, h2⟩ := hv 0 (exEl 22 0 0 0 5 0) rfl
    rcases only t' k' e' ht' hk' with ⟨rfl, rfl, rfl⟩ | ⟨rfl, rfl, rfl⟩
    · simp [exEl] at hid
    · obtain ⟨l, hl, h3, _⟩ := h2 (0, 0) rfl
      cases hl
      obtain ⟨h4, h5⟩ := h3 ⟨5, true, 2⟩ (by simp) rfl
      exact ⟨r, h1, h4, h5⟩
  · obtain ⟨r, h1, _, t', k', e', ht', hk', hid, h2, _⟩ := hv 1 (exEl 23 0 0 0 6 0) rfl
    rcases only t' k' e' ht' hk' with ⟨rfl, rfl, rfl⟩ | ⟨rfl, rfl, rfl⟩
    · exact ⟨r, h1, (h2 rfl).1⟩
    · simp [exEl] at hid

/-- Records of components that take no part. -/
example (c : Container (Comp Unit)) (h : build regD = .ok c) : faultRecords c = [some ⟨40, false⟩] := (idle_records h).2.2

/-- The grid of the example: node 2 carries generator 6 and is not energised, the node of load 5 is. -/
noncomputable def regS (c : Container (Comp Unit)) : CalcInput.PfComponents ℤ Nat Nat (Int × Bool) where
  grid := ⟨2, [], [], [(0, true)]⟩
  source := [7]
  load := (loadsAndGens regD).map fun e => (if e.id = 5 then 0 else 1, 3, exA.on e.id)
  taps := 0
  regulator := (regD .voltageRegulator).map fun e => ((regulatedIdx c (⟨.voltageRegulator, e⟩ : Comp Unit)).getD 0, e.object, exA.on e.id)

/-- Regulator 22 shows the violation of its bus, which the solver decided to be 2. -/
example (c : Container (Comp Unit)) (h : build regD = .ok c) :
    ∃ s cc I place, Topology.build (regS c).grid = some (s, cc) ∧ CalcInput.preparePowerFlow (fun _ _ => true) (regS c) = .ok I ∧ ∀ O : Objects, O.loadGen = place →
      (∃ r, (voltRegRecords exA c O ((List.range s.islands.length).map fun g => vrEntries (islandOf I (buses s) (fun _ _ => 2) g)))[0]? = some (some r) ∧ r.energized = true ∧ r.limit = 2) ∧
      ∃ r, (voltRegRecords exA c O ((List.range s.islands.length).map fun g => vrEntries (islandOf I (buses s) (fun _ _ => 2) g)))[1]? = some (some r) ∧ r.energized = false ∧ r.limit = 0 := by
  have hv : (regS c).grid.Valid := ⟨by simp [regS], by simp [regS], by simp [regS]⟩
  obtain ⟨s, cc, I, place, h1, h2, h3⟩ := voltage_regulator_calculation h exA (fun _ _ => true) (regS c) hv rfl (Or.inl rfl) (fun e => if e.id = 5 then 0 else 1) (fun _ => 3) rfl rfl (fun _ _ => 2)
  refine ⟨s, cc, I, place, h1, h2, fun O hO => ⟨?_, ?_⟩⟩
  · obtain ⟨r, r1, _, e', _, r3, r4, r5, _⟩ := h3 O hO 0 (exEl 22 0 0 0 5 0) rfl
    have hid : e'.id = 5 := r3
    have he : r.energized = true := r4.mpr ⟨⟨(0, true), by simp [regS], rfl, by simp [hid]; exact Relation.ReflTransGen.refl⟩, rfl, rfl⟩
    obtain ⟨_, _, _, h5⟩ := r5 he
    exact ⟨r, r1, he, h5⟩
  · obtain ⟨r, r1, _, e', _, r3, r4, _, r6⟩ := h3 O hO 1 (exEl 23 0 0 0 6 0) rfl
    have hid : e'.id = 6 := r3
    have he : r.energized = false := by
      by_contra hne
      obtain ⟨⟨x, hx, _, hr⟩, _⟩ := r4.mp (by simpa using hne)
      simp only [regS, List.mem_singleton] at hx
      subst hx
      simp only [hid] at hr
      rcases Relation.ReflTransGen.cases_head hr with h0 | ⟨y, hy, _⟩
      · simp at h0
      · obtain ⟨a, hy⟩ := hy
        have none : ∀ {x y : Nat} {a : ℤ}, ¬Link (regS c).grid x y a := by
          intro x y a hl
          cases hl with
          | forward h _ _ => simp [regS] at h
          | backward h _ _ => simp [regS] at h
          | inward h _ => simp [regS] at h
          | outward h _ => simp [regS] at h
        exact none hy
    exact ⟨r, r1, he, r6 he⟩

end PGM.Reports
