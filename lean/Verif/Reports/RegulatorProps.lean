import Verif.Reports.Regulator
import Verif.Output.Records

/-!
# C63: regulators report what the calculation did with them
-/

namespace PGM.Reports

open PGM.Container PGM.Input PGM.Update PGM.Topology PGM.PowerFlow PGM.Output

variable {K : Type}

/-! ## Lemmas -/

theorem typeOf_eq {D : CompType → List (Elem K)} {c : Container (Comp K)} (h : build D = .ok c) {t : CompType} {k : Nat} {e : Elem K} (hk : (D t)[k]? = some e) :
    typeOf c e.id = some t := by
  simp [typeOf, map_eq h hk, build_contents D c h t, List.getElem?_map, hk]

theorem regulated_ok {D : CompType → List (Elem K)} {c : Container (Comp K)} (h : build D = .ok c) {t : CompType} {k : Nat} {e : Elem K} (hk : (D t)[k]? = some e)
    (ht : regulatedClass t = some (baseOf t)) (x : Comp K) (hx : x.elem.object = e.id) : regulatedIdx c x = some (position D t k) := by
  simp [regulatedIdx, hx, typeOf_eq h hk, ht, seq_position h hk]

theorem reg_record {D : CompType → List (Elem K)} {c : Container (Comp K)} (h : build D = .ok c) {t : CompType} (ht : baseOf t = .regulator) {k : Nat} {e : Elem K}
    (hk : (D t)[k]? = some e) {s : Nat} (hs : regulatedIdx c (⟨t, e⟩ : Comp K) = some s) {γ : Type} (f : Comp K → Nat → Option γ) :
    (produce t c (registered .regulator c (regulatedIdx c)) f)[k]? = some (f ⟨t, e⟩ s) := by
  obtain ⟨o, _, h2, _, _, h5⟩ := seq_ok h hk
  rw [produce_eq h hk h2]
  rw [← ht, h5, hs]
  rfl

/-- The object of a regulator exists and has a number. -/
theorem tap_target {D : CompType → List (Elem K)} {c : Container (Comp K)} (h : build D = .ok c) {e : Elem K} (he : e ∈ D .tapRegulator) :
    ∃ s, regulatedIdx c (⟨.tapRegulator, e⟩ : Comp K) = some s := by
  obtain ⟨t', ht', e', he', hid⟩ := ((build_iff_valid D).mp ⟨c, h⟩).resolved .tapRegulator e he (e.object, _) (List.mem_singleton.mpr rfl)
  obtain ⟨k', hk'⟩ := List.mem_iff_getElem?.mp he'
  refine ⟨_, regulated_ok h hk' ?_ _ hid.symm⟩
  split_ifs at ht' with h1 h2
  · simp only [List.mem_cons, List.not_mem_nil, or_false] at ht'
    rcases ht' with rfl | rfl <;> rfl
  · simp only [List.mem_cons, List.not_mem_nil, or_false] at ht'
    subst ht'; rfl
  · simp at ht'

theorem volt_target {D : CompType → List (Elem K)} {c : Container (Comp K)} (h : build D = .ok c) {e : Elem K} (he : e ∈ D .voltageRegulator) :
    ∃ (t' : CompType) (k' : Nat) (e' : Elem K), t' ∈ [CompType.symGen, .asymGen, .symLoad, .asymLoad] ∧ (D t')[k']? = some e' ∧ e'.id = e.object ∧
      regulatedIdx c (⟨.voltageRegulator, e⟩ : Comp K) = some (position D t' k') := by
  obtain ⟨t', ht', e', he', hid⟩ := ((build_iff_valid D).mp ⟨c, h⟩).resolved .voltageRegulator e he (e.object, _) (List.mem_singleton.mpr rfl)
  obtain ⟨k', hk'⟩ := List.mem_iff_getElem?.mp he'
  refine ⟨t', k', e', ht', hk', hid, regulated_ok h hk' ?_ _ hid.symm⟩
  simp only [List.mem_cons, List.not_mem_nil, or_false] at ht'
  rcases ht' with rfl | rfl | rfl | rfl <;> rfl

theorem find_unique {α : Type} (key : α → Int) : ∀ (l : List α), (l.map key).Nodup → ∀ x ∈ l, l.find? (fun y => key y == key x) = some x
  | [], _, x, hx => by simp at hx
  | a :: l, hn, x, hx => by
    rw [List.map_cons, List.nodup_cons] at hn
    rcases List.mem_cons.mp hx with rfl | hx
    · simp
    · have hne : key a ≠ key x := fun h => hn.1 (h ▸ List.mem_map_of_mem hx)
      rw [List.find?_cons_of_neg (by simpa using hne)]
      exact find_unique key l hn.2 x hx

/-! ## Theorems -/

/-- C63, transformer tap regulators. For every accepted input and every result of the optimiser, which lists a transformer at most once: record `k` belongs to regulator `k`. If the optimiser set a tap
position for the transformer, the record shows it. Otherwise, which includes all calculations without tap changing, it shows no position. -/
theorem tap_regulators {D : CompType → List (Elem K)} {c : Container (Comp K)} (h : build D = .ok c) (taps : List (Int × Int)) (hn : (taps.map (·.1)).Nodup) :
    (tapRegRecords c taps).length = (D .tapRegulator).length ∧ ∀ (k : Nat) (e : Elem K), (D .tapRegulator)[k]? = some e →
      ∃ r, (tapRegRecords c taps)[k]? = some (some r) ∧ r.id = e.id ∧
        (∀ p, (e.object, p) ∈ taps → r.energized = true ∧ r.tapPos = some p) ∧
        ((∀ p, (e.object, p) ∉ taps) → r.energized = false ∧ r.tapPos = none) := by
  refine ⟨produce_length h _ _ _, ?_⟩
  intro k e hk
  obtain ⟨s, hs⟩ := tap_target h (List.mem_of_getElem? hk)
  have hr : (tapRegRecords c taps)[k]? = some (tapRegResult taps ⟨.tapRegulator, e⟩ s) := reg_record h rfl hk hs _
  rw [hr]
  by_cases hex : ∃ p, (e.object, p) ∈ taps
  · obtain ⟨p, hp⟩ := hex
    have hfind := find_unique (·.1) taps hn _ hp
    refine ⟨⟨e.id, true, some p⟩, by simp only [tapRegResult]; rw [hfind], rfl, ?_, fun hno => absurd hp (hno p)⟩
    intro p' hp'
    have := find_unique (·.1) taps hn _ hp'
    rw [hfind] at this
    cases this
    exact ⟨rfl, rfl⟩
  · have hno : ∀ p, (e.object, p) ∉ taps := fun p hp => hex ⟨p, hp⟩
    have hfind : taps.find? (fun p => p.1 == e.object) = none := by
      rw [List.find?_eq_none]
      rintro ⟨a, p⟩ hp heq
      simp only [beq_iff_eq] at heq
      exact hno p (heq ▸ hp)
    refine ⟨⟨e.id, false, none⟩, by simp only [tapRegResult]; rw [hfind], rfl, fun p hp => absurd hp (hno p), fun _ => ⟨rfl, rfl⟩⟩

/-- C63, transformer tap regulators after tap changing: the record shows the position in which the optimiser left the transformer. `idOf` gives the IDs of the transformers that the optimiser numbers. -/
theorem tap_regulator_position {F : Type} {D : CompType → List (Elem K)} {c : Container (Comp K)} (h : build D = .ok c) (C : TapOpt.Cfg F) (s : TapOpt.St) (v : TapOpt.Volt F) (idOf : Nat → Int)
    (hn : (C.order.flatten.map idOf).Nodup) (k : Nat) (e : Elem K) (hk : (D .tapRegulator)[k]? = some e) (t : Nat) (ht : t ∈ C.order.flatten) (hid : idOf t = e.object) :
    ∃ r, (tapRegRecords c ((TapOpt.produceOutput C s v).taps.map fun p => (idOf p.1, p.2)))[k]? = some (some r) ∧ r.id = e.id ∧ r.energized = true ∧ r.tapPos = some (s.pos t) := by
  have hn' : (((TapOpt.produceOutput C s v).taps.map fun p => (idOf p.1, p.2)).map (·.1)).Nodup := by
    simpa [TapOpt.produceOutput, Function.comp_def] using hn
  obtain ⟨r, h1, h2, h3, _⟩ := (tap_regulators h _ hn').2 k e hk
  have hmem : (e.object, s.pos t) ∈ (TapOpt.produceOutput C s v).taps.map fun p => (idOf p.1, p.2) := by
    simp only [TapOpt.produceOutput, List.map_map, List.mem_map, Function.comp]
    exact ⟨t, ht, by rw [hid]⟩
  exact ⟨r, h1, h2, h3 _ hmem⟩

/-- C63, voltage regulators. The regulated load or generator exists in the input. If it is in no island, or the result of its island has no entry for it, the regulator is reported as not energised without a
violation; otherwise it is energised if it is switched on and the generator is, and the violation is that of the entry. -/
theorem voltage_regulators {D : CompType → List (Elem K)} {c : Container (Comp K)} (h : build D = .ok c) (A : Attr) (O : Objects) (vr : List (List VrSol))
    (hf : ∀ s m, O.loadGen s = some m → m.1 < vr.length) (hn : ∀ l ∈ vr, (l.map VrSol.generator).Nodup) :
    (voltRegRecords A c O vr).length = (D .voltageRegulator).length ∧ ∀ (k : Nat) (e : Elem K), (D .voltageRegulator)[k]? = some e →
      ∃ r, (voltRegRecords A c O vr)[k]? = some (some r) ∧ r.id = e.id ∧
        ∃ (t' : CompType) (k' : Nat) (e' : Elem K), t' ∈ [CompType.symGen, .asymGen, .symLoad, .asymLoad] ∧ (D t')[k']? = some e' ∧ e'.id = e.object ∧
          (O.loadGen (position D t' k') = none → r.energized = false ∧ r.limit = 0) ∧
          ∀ m, O.loadGen (position D t' k') = some m → ∃ l, vr[m.1]? = some l ∧
            (∀ v ∈ l, v.generator = e'.id → r.energized = (A.on e.id && v.generatorOn) ∧ r.limit = v.limit) ∧
            ((∀ v ∈ l, v.generator ≠ e'.id) → r.energized = false ∧ r.limit = 0) := by
  refine ⟨produce_length h _ _ _, ?_⟩
  intro k e hk
  obtain ⟨t', k', e', ht', hk', hid, hs⟩ := volt_target h (List.mem_of_getElem? hk)
  have hr : (voltRegRecords A c O vr)[k]? = some (voltRegResult A O vr ⟨.voltageRegulator, e⟩ (position D t' k')) := reg_record h rfl hk hs _
  rw [hr]
  cases hm : O.loadGen (position D t' k') with
  | none => exact ⟨⟨e.id, false, 0⟩, by simp [voltRegResult, hm], rfl, t', k', e', ht', hk', hid, fun _ => ⟨rfl, rfl⟩, by intro m h0; rw [hm] at h0; cases h0⟩
  | some m =>
    have hl := hf _ m hm
    refine ⟨voltRegFind A ⟨.voltageRegulator, e⟩ vr[m.1], by simp [voltRegResult, hm, hl], ?_, t', k', e', ht', hk', hid, (by intro h0; rw [hm] at h0; cases h0), ?_⟩
    · unfold voltRegFind
      split <;> rfl
    · intro m' hm'
      rw [hm] at hm'
      cases hm'
      refine ⟨vr[m.1], List.getElem?_eq_getElem hl, ?_, ?_⟩
      · intro v hv hg
        have hfind := find_unique VrSol.generator vr[m.1] (hn _ (List.getElem_mem hl)) v hv
        rw [hg, hid] at hfind
        unfold voltRegFind
        rw [hfind]
        exact ⟨rfl, rfl⟩
      · intro hno
        have hfind : vr[m.1].find? (fun v => v.generator == e.object) = none := by
          rw [List.find?_eq_none]
          intro v hv heq
          simp only [beq_iff_eq] at heq
          exact hno v hv (heq.trans hid.symm)
        unfold voltRegFind
        rw [hfind]
        exact ⟨rfl, rfl⟩

/-- C63, regulators in short-circuit calculations, and faults in steady-state calculations: one record for each, in order, never energised. -/
theorem idle_records {D : CompType → List (Elem K)} {c : Container (Comp K)} (h : build D = .ok c) :
    ((scRegRecords .tapRegulator c) = (D .tapRegulator).map fun e => some ⟨e.id, false⟩) ∧
      ((scRegRecords .voltageRegulator c) = (D .voltageRegulator).map fun e => some ⟨e.id, false⟩) ∧
      ((faultRecords c) = (D .fault).map fun e => some ⟨e.id, false⟩) := by
  have key : ∀ (l : List (Option BaseOut)) (t : CompType), l.length = (D t).length → (∀ (k : Nat) (e : Elem K), (D t)[k]? = some e → l[k]? = some (some ⟨e.id, false⟩)) →
      l = (D t).map fun e => some ⟨e.id, false⟩ := by
    intro l t hl hk
    apply List.ext_getElem?
    intro k
    by_cases hkl : k < (D t).length
    · rw [hk k _ (List.getElem?_eq_getElem hkl), List.getElem?_map, List.getElem?_eq_getElem hkl]
      rfl
    · rw [List.getElem?_eq_none (by omega), List.getElem?_eq_none (by simp; omega)]
  refine ⟨key _ _ (produce_length h _ _ _) ?_, key _ _ (produce_length h _ _ _) ?_, key _ _ (produce_length h _ _ _) ?_⟩
  · intro k e hk
    obtain ⟨s, hs⟩ := tap_target h (List.mem_of_getElem? hk)
    exact reg_record h rfl hk hs _
  · intro k e hk
    obtain ⟨_, _, _, _, _, _, hs⟩ := volt_target h (List.mem_of_getElem? hk)
    exact reg_record h rfl hk hs _
  · intro k e hk
    unfold faultRecords
    rw [produce_eq h hk (seq_position h hk)]
    rfl

end PGM.Reports
