import Verif.Reports.RegulatorProps

/-!
# The entries of voltage regulators in the result of a solver, and C63 from the state of the grid

Model of the part of `calculate_pf_result`, `P/math_solver/common_solver_functions.hpp` lines 413-445, that fills `output.voltage_regulator`. The powers are modelled in `Verif.PowerFlow.Regulator`.
-/

namespace PGM.Reports

open PGM.Container PGM.Input PGM.Update PGM.Topology PGM.PowerFlow PGM.Output

variable {K : Type}

/-! ## Model -/

/-- What an island gives to the solver: regulated ID and status of its regulators, the load or generator of each (`voltage_regulators_per_load_gen`), the status of the loads and generators, the loads and
generators of the buses, and `output.bus[bus].q_limit_violated` (0 for none). -/
structure VrIsland where
  regs : List (Int × Bool)
  load : List Nat
  loadOn : Nat → Bool
  buses : List (List Nat)
  violated : Nat → Int

/-- `loadgen_to_regulator`, lines 433-438: `insert` keeps the first entry. -/
def VrIsland.regulatorOf (I : VrIsland) (l : Nat) : Option Nat := I.load.findIdx? fun x => x == l

/-- The entry of a regulator in `initialize_regulator_output_and_distribution`, lines 187-193. -/
def initReg (I : VrIsland) (out : List VrSol) (l : Nat) : List VrSol :=
  match I.regulatorOf l with
  | none => out
  | some r =>
    match I.regs[r]? with
    | none => out
    | some x => out.set r ⟨x.1, I.loadOn l, 0⟩

/-- The entry of a regulator in `allocate_q_bus_limit_violated`, lines 297-305, for the regulating ones, lines 195-196. -/
def violateReg (I : VrIsland) (v : Int) (out : List VrSol) (l : Nat) : List VrSol :=
  match I.regulatorOf l with
  | none => out
  | some r =>
    match I.regs[r]? with
    | none => out
    | some x => if I.loadOn l && x.2 then out.modify r fun y => { y with limit := v } else out

/-- `calculate_voltage_regulator_result`, lines 242-268, as far as it writes `output.voltage_regulator`. If no limit of the bus is violated, `allocate_q_iterative_distribution` leaves the entries
without a violation. -/
def visitBus (I : VrIsland) (out : List VrSol) (b : List Nat × Nat) : List VrSol :=
  if I.violated b.2 = 0 then b.1.foldl (initReg I) out
  else b.1.foldl (violateReg I (I.violated b.2)) (b.1.foldl (initReg I) out)

/-- The loop over the buses, lines 440-444. -/
def vrEntries (I : VrIsland) : List VrSol := I.buses.zipIdx.foldl (visitBus I) (List.replicate I.regs.length ⟨0, false, 0⟩)

/-! ## Lemmas -/

section
variable {I : VrIsland} {r p : Nat} {x : Int × Bool}

theorem regulatorOf_eq (hn : I.load.Nodup) (hp : I.load[r]? = some p) : I.regulatorOf p = some r := by
  obtain ⟨hr, rfl⟩ := List.getElem?_eq_some_iff.mp hp
  unfold VrIsland.regulatorOf
  rw [List.findIdx?_eq_some_iff_getElem]
  refine ⟨hr, by simp, ?_⟩
  intro j hj hEq
  simp only [beq_iff_eq] at hEq
  have := (List.Nodup.getElem_inj_iff hn).mp hEq
  omega

theorem regulatorOf_ne {l : Nat} (hp : I.load[r]? = some p) (hl : l ≠ p) : I.regulatorOf l ≠ some r := by
  intro h
  unfold VrIsland.regulatorOf at h
  rw [List.findIdx?_eq_some_iff_getElem] at h
  obtain ⟨hr, h1, _⟩ := h
  rw [List.getElem?_eq_getElem hr, Option.some.injEq] at hp
  simp only [beq_iff_eq] at h1
  exact hl (h1.symm.trans hp)

theorem initReg_length (out : List VrSol) (l : Nat) : (initReg I out l).length = out.length := by
  unfold initReg
  split
  · rfl
  · split <;> simp

theorem violateReg_length (v : Int) (out : List VrSol) (l : Nat) : (violateReg I v out l).length = out.length := by
  unfold violateReg
  split
  · rfl
  · split
    · rfl
    · split_ifs <;> simp

theorem initReg_at (hn : I.load.Nodup) (hx : I.regs[r]? = some x) (hp : I.load[r]? = some p) (out : List VrSol) (hr : r < out.length) :
    (initReg I out p)[r]? = some ⟨x.1, I.loadOn p, 0⟩ := by
  simp [initReg, regulatorOf_eq hn hp, hx, hr]

theorem initReg_other (hp : I.load[r]? = some p) (out : List VrSol) {l : Nat} (hl : l ≠ p) : (initReg I out l)[r]? = out[r]? := by
  have := regulatorOf_ne hp hl
  unfold initReg
  split
  · rfl
  · rename_i r' h'
    have hne : r' ≠ r := fun h => this (h ▸ h')
    split
    · rfl
    · rw [List.getElem?_set_ne hne]

theorem violateReg_at (hn : I.load.Nodup) (hx : I.regs[r]? = some x) (hp : I.load[r]? = some p) (v : Int) (out : List VrSol) :
    (violateReg I v out p)[r]? = out[r]?.map fun y => if I.loadOn p && x.2 then { y with limit := v } else y := by
  simp only [violateReg, regulatorOf_eq hn hp, hx]
  split_ifs with h
  · rw [List.getElem?_modify_eq]
    rfl
  · simp

theorem violateReg_other (hp : I.load[r]? = some p) (v : Int) (out : List VrSol) {l : Nat} (hl : l ≠ p) : (violateReg I v out l)[r]? = out[r]? := by
  have := regulatorOf_ne hp hl
  unfold violateReg
  split
  · rfl
  · rename_i r' h'
    have hne : r' ≠ r := fun h => this (h ▸ h')
    split
    · rfl
    · split_ifs
      · rw [List.getElem?_modify]
        simp [hne]
      · rfl

theorem init_fold_length (ls : List Nat) : ∀ out : List VrSol, (ls.foldl (initReg I) out).length = out.length := by
  induction ls with
  | nil => intro out; rfl
  | cons l ls ih => intro out; rw [List.foldl_cons, ih, initReg_length]

theorem violate_fold_length (v : Int) (ls : List Nat) : ∀ out : List VrSol, (ls.foldl (violateReg I v) out).length = out.length := by
  induction ls with
  | nil => intro out; rfl
  | cons l ls ih => intro out; rw [List.foldl_cons, ih, violateReg_length]

theorem init_fold (hn : I.load.Nodup) (hx : I.regs[r]? = some x) (hp : I.load[r]? = some p) (ls : List Nat) :
    ∀ out : List VrSol, r < out.length → (ls.foldl (initReg I) out)[r]? = if p ∈ ls then some ⟨x.1, I.loadOn p, 0⟩ else out[r]? := by
  induction ls with
  | nil => intro out _; simp
  | cons l ls ih =>
    intro out hr
    rw [List.foldl_cons, ih _ (by rw [initReg_length]; exact hr)]
    by_cases hl : l = p
    · subst hl
      rw [initReg_at hn hx hp out hr]
      simp
    · rw [initReg_other hp out hl]
      simp [Ne.symm hl]

theorem violate_fold (hn : I.load.Nodup) (hx : I.regs[r]? = some x) (hp : I.load[r]? = some p) (v : Int) (ls : List Nat) :
    ∀ out : List VrSol, (ls.foldl (violateReg I v) out)[r]? =
      if p ∈ ls then out[r]?.map (fun y => if I.loadOn p && x.2 then { y with limit := v } else y) else out[r]? := by
  induction ls with
  | nil => intro out; simp
  | cons l ls ih =>
    intro out
    rw [List.foldl_cons, ih]
    by_cases hl : l = p
    · subst hl
      rw [violateReg_at hn hx hp v out]
      cases out[r]? with
      | none => simp
      | some y => by_cases hb : (I.loadOn l && x.2) = true <;> simp [hb]
    · rw [violateReg_other hp v out hl]
      simp [Ne.symm hl]

/-- The final entry of a regulator. -/
def solved (I : VrIsland) (x : Int × Bool) (p b : Nat) : VrSol := ⟨x.1, I.loadOn p, if I.loadOn p && x.2 then I.violated b else 0⟩

theorem visitBus_length (out : List VrSol) (b : List Nat × Nat) : (visitBus I out b).length = out.length := by
  unfold visitBus
  split_ifs
  · exact init_fold_length _ _
  · rw [violate_fold_length, init_fold_length]

theorem visitBus_at (hn : I.load.Nodup) (hx : I.regs[r]? = some x) (hp : I.load[r]? = some p) (b : List Nat × Nat) (out : List VrSol) (hr : r < out.length) :
    (visitBus I out b)[r]? = if p ∈ b.1 then some (solved I x p b.2) else out[r]? := by
  unfold visitBus
  split_ifs with h0 h1 h1
  · rw [init_fold hn hx hp _ _ hr, if_pos h1]; simp [solved, h0]
  · rw [init_fold hn hx hp _ _ hr, if_neg h1]
  · rw [violate_fold hn hx hp, init_fold hn hx hp _ _ hr, if_pos h1, if_pos h1]
    simp only [Option.map_some, solved]
    split_ifs <;> rfl
  · rw [violate_fold hn hx hp, init_fold hn hx hp _ _ hr, if_neg h1, if_neg h1]

theorem visit_fold (hn : I.load.Nodup) (hx : I.regs[r]? = some x) (hp : I.load[r]? = some p) (b : Nat) (bs : List (List Nat × Nat)) (hone : ∀ y ∈ bs, p ∈ y.1 → y.2 = b) :
    ∀ out : List VrSol, r < out.length → (bs.foldl (visitBus I) out)[r]? = if ∃ y ∈ bs, p ∈ y.1 then some (solved I x p b) else out[r]? := by
  induction bs with
  | nil => intro out _; simp
  | cons y bs ih =>
    intro out hr
    rw [List.foldl_cons, ih (fun y' hy' => hone y' (List.mem_cons_of_mem _ hy')) _ (by rw [visitBus_length]; exact hr), visitBus_at hn hx hp y out hr]
    by_cases hy : p ∈ y.1
    · have := hone y List.mem_cons_self hy
      simp [hy, this]
    · rw [if_neg hy]
      have : (∃ z ∈ y :: bs, p ∈ z.1) ↔ ∃ z ∈ bs, p ∈ z.1 := by
        constructor
        · rintro ⟨z, hz, hp'⟩
          rcases List.mem_cons.mp hz with rfl | hz
          · exact absurd hp' hy
          · exact ⟨z, hz, hp'⟩
        · rintro ⟨z, hz, hp'⟩
          exact ⟨z, List.mem_cons_of_mem _ hz, hp'⟩
      simp only [this]

theorem visit_fold_length (bs : List (List Nat × Nat)) : ∀ out : List VrSol, (bs.foldl (visitBus I) out).length = out.length := by
  induction bs with
  | nil => intro out; rfl
  | cons y bs ih => intro out; rw [List.foldl_cons, ih, visitBus_length]

theorem vrEntries_length : (vrEntries I).length = I.regs.length := by
  unfold vrEntries
  rw [visit_fold_length, List.length_replicate]

/-- Every regulator of the island gets its own entry. -/
theorem vrEntries_at (hn : I.load.Nodup) (hx : I.regs[r]? = some x) (hp : I.load[r]? = some p) {b : Nat} {ls : List Nat} (hb : I.buses[b]? = some ls) (hl : p ∈ ls)
    (hone : ∀ (b' : Nat) ls', I.buses[b']? = some ls' → p ∈ ls' → b' = b) : (vrEntries I)[r]? = some (solved I x p b) := by
  have hr : r < I.regs.length := (List.getElem?_eq_some_iff.mp hx).1
  unfold vrEntries
  rw [visit_fold hn hx hp b _ _ _ (by rwa [List.length_replicate])]
  · rw [if_pos]
    refine ⟨(ls, b), ?_, hl⟩
    rw [List.mem_zipIdx_iff_getElem?]
    exact hb
  · rintro ⟨ls', b'⟩ hy hp'
    rw [List.mem_zipIdx_iff_getElem?] at hy
    exact hone b' ls' hy hp'

end

/-! ## C63 for voltage regulators, from the state of the grid -/

/-- The voltage regulators reach the solver as C58 proves: the regulator of a load or generator in island `g` is in that island once, with the place and the status of the load or generator. Every load or
generator has one bus and at most one regulator. -/
structure Reaches (D : CompType → List (Elem K)) (A : Attr) (O : Objects) (J : List VrIsland) : Prop where
  island : ∀ (t' : CompType) (k' : Nat) (e' : Elem K), t' ∈ [CompType.symGen, .asymGen, .symLoad, .asymLoad] → (D t')[k']? = some e' →
    ∀ m, O.loadGen (position D t' k') = some m → ∃ I, J[m.1]? = some I ∧ I.loadOn m.2 = A.on e'.id ∧ (∃ (b : Nat) (ls : List Nat), I.buses[b]? = some ls ∧ m.2 ∈ ls) ∧
      ∀ e ∈ D .voltageRegulator, e.object = e'.id → ∃ r : Nat, I.regs[r]? = some (e.object, A.on e.id) ∧ I.load[r]? = some m.2
  one : ∀ I ∈ J, I.load.Nodup ∧ I.load.length = I.regs.length ∧ (I.regs.map (·.1)).Nodup ∧ I.buses.flatten.Nodup ∧ ∀ p ∈ I.load, p ∈ I.buses.flatten

theorem flatten_unique : ∀ (l : List (List Nat)), l.flatten.Nodup → ∀ (p b b' : Nat) (ls ls' : List Nat), l[b]? = some ls → p ∈ ls → l[b']? = some ls' → p ∈ ls' → b' = b
  | [], _, _, _, _, _, _, h, _, _, _ => by simp at h
  | a :: l, hn, p, b, b', ls, ls', hb, hp, hb', hp' => by
    rw [List.flatten_cons, List.nodup_append] at hn
    have hd : ∀ q ∈ a, ∀ (c : Nat) (lc : List Nat), l[c]? = some lc → q ∉ lc := by
      intro q hq c lc hc hmem
      exact hn.2.2 q hq q (List.mem_flatten.mpr ⟨lc, List.mem_of_getElem? hc, hmem⟩) rfl
    rcases b with _ | b <;> rcases b' with _ | b'
    · rfl
    · simp only [List.getElem?_cons_zero, Option.some.injEq] at hb
      subst hb
      exact absurd hp' (hd p hp b' ls' hb')
    · simp only [List.getElem?_cons_zero, Option.some.injEq] at hb'
      subst hb'
      exact absurd hp (hd p hp' b ls hb)
    · rw [flatten_unique l hn.2.1 p b b' ls ls' hb hp hb' hp']

theorem vrEntries_generators {I : VrIsland} (h1 : I.load.Nodup) (h2 : I.load.length = I.regs.length) (h3 : I.buses.flatten.Nodup) (h4 : ∀ p ∈ I.load, p ∈ I.buses.flatten) :
    (vrEntries I).map VrSol.generator = I.regs.map (·.1) := by
  apply List.ext_getElem?
  intro r
  rw [List.getElem?_map, List.getElem?_map]
  by_cases hr : r < I.regs.length
  · have hp : I.load[r]? = some (I.load[r]'(by omega)) := List.getElem?_eq_getElem _
    obtain ⟨ls, hls, hpl⟩ := List.mem_flatten.mp (h4 _ (List.mem_of_getElem? hp))
    obtain ⟨b, hb⟩ := List.mem_iff_getElem?.mp hls
    rw [vrEntries_at h1 (List.getElem?_eq_getElem hr) hp hb hpl fun b' ls' hb' hp' => flatten_unique _ h3 _ _ _ _ _ hb hpl hb' hp', List.getElem?_eq_getElem hr]
    rfl
  · rw [List.getElem?_eq_none (by rw [vrEntries_length]; omega), List.getElem?_eq_none (by omega)]
    rfl

/-- C63, voltage regulators, from the state of the grid to the record. If the regulated load or generator is outside of the solved grid the regulator is not energised and shows no violation. Otherwise it is
energised exactly if the regulator and the load or generator are switched on, and then it shows the violation of the bus of the latter. -/
theorem voltage_regulator_state {D : CompType → List (Elem K)} {c : Container (Comp K)} (h : build D = .ok c) (A : Attr) (O : Objects) (J : List VrIsland) (hJ : Reaches D A O J) (k : Nat)
    (e : Elem K) (hk : (D .voltageRegulator)[k]? = some e) :
    ∃ r, (voltRegRecords A c O (J.map vrEntries))[k]? = some (some r) ∧ r.id = e.id ∧
      ∃ (t' : CompType) (k' : Nat) (e' : Elem K), t' ∈ [CompType.symGen, .asymGen, .symLoad, .asymLoad] ∧ (D t')[k']? = some e' ∧ e'.id = e.object ∧
        (O.loadGen (position D t' k') = none → r.energized = false ∧ r.limit = 0) ∧
        ∀ m, O.loadGen (position D t' k') = some m → r.energized = (A.on e.id && A.on e'.id) ∧ (r.energized = false → r.limit = 0) ∧
          ∃ I b ls, J[m.1]? = some I ∧ I.buses[b]? = some ls ∧ m.2 ∈ ls ∧ (r.energized = true → r.limit = I.violated b) := by
  obtain ⟨t0, k0, e0, ht0, hk0, hid0, hs⟩ := volt_target h (List.mem_of_getElem? hk)
  have hr : (voltRegRecords A c O (J.map vrEntries))[k]? = some (voltRegResult A O (J.map vrEntries) ⟨.voltageRegulator, e⟩ (position D t0 k0)) := reg_record h rfl hk hs _
  rw [hr]
  cases hm : O.loadGen (position D t0 k0) with
  | none => exact ⟨⟨e.id, false, 0⟩, by simp [voltRegResult, hm], rfl, t0, k0, e0, ht0, hk0, hid0, fun _ => ⟨rfl, rfl⟩, by intro m h0; rw [hm] at h0; cases h0⟩
  | some m =>
    obtain ⟨I, hI, hon, ⟨b, ls, hb, hl⟩, hreg⟩ := hJ.island t0 k0 e0 ht0 hk0 m hm
    obtain ⟨r, hx, hp⟩ := hreg e (List.mem_of_getElem? hk) hid0.symm
    obtain ⟨o1, o2, o3, o4, o5⟩ := hJ.one I (List.mem_of_getElem? hI)
    have hent := vrEntries_at o1 hx hp hb hl fun b' ls' hb' hp' => flatten_unique _ o4 _ _ _ _ _ hb hl hb' hp'
    have hnd : ((vrEntries I).map VrSol.generator).Nodup := by rw [vrEntries_generators o1 o2 o4 o5]; exact o3
    have hfind := find_unique VrSol.generator (vrEntries I) hnd _ (List.mem_of_getElem? hent)
    have hres : voltRegFind A (⟨.voltageRegulator, e⟩ : Comp K) (vrEntries I) = ⟨e.id, A.on e.id && A.on e0.id, if A.on e0.id && A.on e.id then I.violated b else 0⟩ := by
      unfold voltRegFind
      show (match (vrEntries I).find? (fun v => v.generator == e.object) with | some v => _ | none => _) = _
      have : (solved I (e.object, A.on e.id) m.2 b).generator = e.object := rfl
      rw [this] at hfind
      rw [hfind]
      simp [solved, hon]
    refine ⟨⟨e.id, A.on e.id && A.on e0.id, if A.on e0.id && A.on e.id then I.violated b else 0⟩, by simp [voltRegResult, hm, hI, hres], rfl, t0, k0, e0, ht0, hk0, hid0, (by intro h0; rw [hm] at h0; cases h0), ?_⟩
    intro m' hm'
    rw [hm] at hm'
    cases hm'
    refine ⟨rfl, ?_, I, b, ls, hI, hb, hl, ?_⟩
    · intro h0
      have h0 : (A.on e.id && A.on e0.id) = false := h0
      rw [Bool.and_comm] at h0
      simp [h0]
    · intro h0
      have h0 : (A.on e.id && A.on e0.id) = true := h0
      rw [Bool.and_comm] at h0
      simp [h0]

end PGM.Reports
