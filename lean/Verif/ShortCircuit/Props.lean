import Verif.ShortCircuit.Laws

/-!
# Short-circuit calculation: properties (C20)
-/

namespace PGM.ShortCircuit

open PGM.YBus PGM.Component PGM.PowerFlow PGM.Lu

variable {s : Symm}

/-! ## Lemmas -/

theorem admittance_of {inp : ScInput} {k : Nat} {f : FaultParam} (h : inp.faults[k]? = some f) : admittance inp k = f.y := by
  unfold admittance; rw [h]; rfl

theorem fault_of_bus {N : PfNet s} {inp : ScInput} (hi : inp.Valid N) {b k : Nat} (h : inp.faultBus[k]? = some b) :
    ∃ f, FaultAt inp b k f ∧ admittance inp k = f.y := by
  have hk : k < inp.faults.length := by rw [← hi.length]; exact (List.getElem?_eq_some_iff.mp h).1
  exact ⟨inp.faults[k], ⟨h, List.getElem?_eq_getElem hk⟩, admittance_of (List.getElem?_eq_getElem hk)⟩

theorem anySolid_iff {N : PfNet s} {inp : ScInput} (hi : inp.Valid N) (b : Nat) :
    anySolid (admittance inp) (onBus inp.faultBus b) = true ↔ Solid inp b := by
  unfold anySolid Solid
  rw [List.any_eq_true]
  constructor
  · rintro ⟨k, hk, hy⟩
    obtain ⟨f, hf, e⟩ := fault_of_bus hi (mem_onBus.mp hk)
    refine ⟨k, f, hf, ?_⟩
    rw [← e]
    simpa using hy
  · rintro ⟨k, f, hf, hy⟩
    refine ⟨k, mem_onBus.mpr hf.1, ?_⟩
    rw [admittance_of hf.2, hy]; rfl

theorem total_eq {N : PfNet s} {inp : ScInput} (hi : inp.Valid N) (b : Nat) :
    sumFinite (admittance inp) (onBus inp.faultBus b) = totalAdmittance inp b := by
  unfold sumFinite totalAdmittance
  rw [onBus_sum]
  congr 1
  apply List.ext_getElem
  · simp [hi.length]
  · intro k h1 h2
    simp only [List.length_map, List.length_zipIdx] at h1
    have hk : k < inp.faults.length := by rw [← hi.length]; exact h1
    simp only [List.getElem_map, List.getElem_zipIdx, List.getElem_zip, Nat.zero_add]
    rw [admittance_of (List.getElem?_eq_getElem hk)]

theorem parallel_eq {N : PfNet s} {inp : ScInput} (hi : inp.Valid N) (b : Nat) :
    parallel inp b = if anySolid (admittance inp) (onBus inp.faultBus b) then none else some (sumFinite (admittance inp) (onBus inp.faultBus b)) := by
  unfold parallel
  rw [total_eq hi]
  by_cases h : Solid inp b
  · rw [if_pos h, if_pos ((anySolid_iff hi b).mpr h)]
  · rw [if_neg h, if_neg (fun e => h ((anySolid_iff hi b).mp e))]

theorem onBus_pos {inp : ScInput} {b k : Nat} (h : inp.faultBus[k]? = some b) : 0 < (onBus inp.faultBus b).length :=
  List.length_pos_of_mem (mem_onBus.mpr h)

/-- The faults of an accepted input have one type and phase. -/
theorem all_equal_of_valid {l : List FaultParam} (h : inputValid l = true) : ∀ f ∈ l, ∀ g ∈ l, f.type = g.type ∧ f.phase = g.phase := by
  cases l with
  | nil => intro f hf; simp at hf
  | cons a l =>
    unfold inputValid allEqual at h
    simp only [Bool.and_eq_true, List.all_eq_true, beq_iff_eq] at h
    intro f hf g hg
    have h1 := h.1 f hf
    have h2 := h.1 g hg
    exact ⟨h1.1.trans h2.1.symm, h1.2.trans h2.2.symm⟩

/-- The case that the solver selects. -/
theorem kind_of_input {N : PfNet s} {inp : ScInput} (hi : inp.Valid N) (hv : inputValid inp.faults = true) :
    ∃ kind : Kind s.phases, selected s inp.faults = some kind ∧ kind.Proper ∧
      ∀ f ∈ inp.faults, (∀ y u i, KLaw kind y u i ↔ FaultLaw f.type f.phase y u i) ∧
        ((∃ a, kind = .single a) → f.type = 1) ∧ ((∃ a b, kind = .ground a b) → f.type = 3) := by
  cases hl : inp.faults with
  | nil => exact ⟨.three, rfl, trivial, by simp⟩
  | cons f l =>
    have hf : f ∈ inp.faults := by rw [hl]; simp
    obtain ⟨kind, h1, h2, h3, h4, h5⟩ := kind_of_meaningful (hi.combination f hf) (fun e => hi.symmetric e f hf)
    refine ⟨kind, h1, h2, fun g hg => ?_⟩
    rw [← hl] at hg
    obtain ⟨e1, e2⟩ := all_equal_of_valid hv f hf g hg
    rw [← e1, ← e2]
    exact ⟨h3, h4, h5⟩

/-- What a calculation with results has done. -/
theorem run_of_ok {N : PfNet s} (hN : N.Valid) (hc : FillClosed N.T) {inp : ScInput} (hi : inp.Valid N) (perms : List (BlockPerm s.phases))
    (hp : perms.length = N.T.nBus) {out : ScOut s} (h : shortCircuit N inp perms = .ok out) :
    ∃ (kind : Kind s.phases) (x : Nat → CV s), kind.Proper ∧ selected s inp.faults = some kind ∧
      (∀ f ∈ inp.faults, (∀ y u i, KLaw kind y u i ↔ FaultLaw f.type f.phase y u i) ∧
        ((∃ a, kind = .single a) → f.type = 1) ∧ ((∃ a b, kind = .ground a b) → f.type = 3)) ∧
      Solves N (equations N inp kind).1 x ∧ out = results N inp kind (equations N inp kind).2 x ∧
      ∀ z, Solves N (equations N inp kind).1 z → ∀ b, b < N.T.nBus → z b = x b := by
  unfold shortCircuit at h
  by_cases hval : inputValid inp.faults = false
  · rw [if_pos hval] at h; exact absurd h (by simp)
  rw [if_neg hval] at h
  obtain ⟨kind, k1, k2, k3⟩ := kind_of_input hi (by simpa using hval)
  rw [k1] at h
  simp only at h
  have hv := structure_valid hN.topo hc hN.structure_
  have hlen := (equations_has hN inp k2).1.len
  have hh := matrixOf_holds hv _ hlen
  have hrhs : (toVec N (equations N inp kind).1.rhs).length = N.T.nBus := by simp [toVec]
  cases hx : factorizeAndSolve (luPattern N.S) false (equations N inp kind).1.mat perms (toVec N (equations N inp kind).1.rhs) with
  | error e => rw [hx] at h; exact absurd h (by simp)
  | ok x =>
    rw [hx] at h
    simp only [Except.ok.injEq] at h
    have hsys := factorizeAndSolve_exact hv _ _ perms hh hp _ x hrhs hx
    refine ⟨kind, fun b => x[b]?.getD 0, k2, k1, k3, solves_of_system hN hc _ hlen x hsys, h.symm, fun z hz b hb => ?_⟩
    have huniq : ∀ y z, SolvesSystem N.T.nBus (matrixOf (luPattern N.S) (equations N inp kind).1.mat) y (toVec N (equations N inp kind).1.rhs) →
        SolvesSystem N.T.nBus (matrixOf (luPattern N.S) (equations N inp kind).1.mat) z (toVec N (equations N inp kind).1.rhs) → y = z := by
      unfold factorizeAndSolve at hx
      cases hf : prefactorize (luPattern N.S) false (equations N inp kind).1.mat perms with
      | error e => rw [hf] at hx; exact absurd hx (by simp [bind, Except.bind])
      | ok f => exact (solve_exact hv _ _ perms hh hp f hf _ _ hrhs hrhs).2.2
    have e := huniq _ _ (system_of_solves hN hc _ hlen z hz) hsys
    rw [← e]
    simp [toVec, hb]

/-- The current that the reported sources, shunts and branches supply. -/
theorem supplied_eq {N : PfNet s} (hN : N.Valid) {inp : ScInput} (hi : inp.Valid N) {kind : Kind s.phases} (hk : kind.Proper) (x : Nat → CV s)
    {b : Nat} (hb : b < N.T.nBus) :
    supplied N (results N inp kind (equations N inp kind).2 x) b =
      sourceI N inp b - dot s (sourceY N b) (voltageOf inp kind x b) - busCurrent N.S N.y (dot s) (voltageOf inp kind x) b := by
  obtain ⟨r1, r2, r3, r4, _⟩ := results_spec N inp hk _ x (equations_has hN inp hk).2.2 hi.bus
  unfold supplied
  rw [r2, r3, r1]
  have hs : atBus N.sourceBus (results N inp kind (equations N inp kind).2 x).source b =
      sourceI N inp b - dot s (sourceY N b) (voltageOf inp kind x b) := by
    rw [atBus_eq]
    rw [List.map_congr_left (g := physicalSource N ⟨inp.source, fun _ => 0⟩ (voltageOf inp kind x b))
      (fun k hk' => by rw [r4 b k hb (mem_onBus.mp hk'), r1])]
    exact physical_sum N _ _ _
  rw [hs, busCurrent_is_flow_of hN.topo hN.structure_ (coherent_of_valid hN) (dot s) _ b hb]
  abel

theorem supplied_fault {N : PfNet s} (hN : N.Valid) {inp : ScInput} (hi : inp.Valid N) {kind : Kind s.phases} (hk : kind.Proper) (x : Nat → CV s)
    (hx : Solves N (equations N inp kind).1 x) {b : Nat} (hb : b < N.T.nBus) :
    supplied N (results N inp kind (equations N inp kind).2 x) b = faultOf N inp kind x b := by
  rw [supplied_eq hN hi hk x hb, ← (equations_mean hN inp hk x).mp hx b hb]
  abel

theorem no_fault_nil {inp : ScInput} {b : Nat} (h : b ∉ inp.faultBus) : onBus inp.faultBus b = [] := by
  rw [List.eq_nil_iff_forall_not_mem]
  exact fun k hk => h (List.mem_of_getElem? (mem_onBus.mp hk))

/-! ## The voltages, branches and sources -/

/-- **C20, the calculation never misbehaves**: faults of different types or phases are rejected, a matrix that cannot be factorised is
reported, and otherwise there are results. -/
theorem shortCircuit_total {N : PfNet s} (hN : N.Valid) (hc : FillClosed N.T) {inp : ScInput} (hi : inp.Valid N) (perms : List (BlockPerm s.phases))
    (hp : perms.length = N.T.nBus) :
    ((∃ f ∈ inp.faults, ∃ g ∈ inp.faults, ¬ (f.type = g.type ∧ f.phase = g.phase)) → shortCircuit N inp perms = .error .invalid) ∧
    ((∀ f ∈ inp.faults, ∀ g ∈ inp.faults, f.type = g.type ∧ f.phase = g.phase) →
      shortCircuit N inp perms = .error (.solver .singular) ∨ ∃ out, shortCircuit N inp perms = .ok out) := by
  constructor
  · rintro ⟨f, hf, g, hg, hne⟩
    unfold shortCircuit
    rw [if_pos]
    cases h : inputValid inp.faults with
    | false => rfl
    | true => exact absurd (all_equal_of_valid h f hf g hg) hne
  · intro hall
    have hval : inputValid inp.faults = true := by
      cases hl : inp.faults with
      | nil => rfl
      | cons a l =>
        have ha : a ∈ inp.faults := by rw [hl]; simp
        unfold inputValid allEqual
        simp only [Bool.and_eq_true, List.all_eq_true, beq_iff_eq]
        refine ⟨fun g hg => hall g (by rw [hl]; exact hg) a ha, ?_⟩
        rcases meaningful_cases (hi.combination a ha) with ⟨h1, h2⟩ | ⟨h1, h2 | h2 | h2⟩ | ⟨h1, h2 | h2 | h2⟩ | ⟨h1, h2 | h2 | h2⟩ <;>
          rw [h1, h2] <;> decide
    unfold shortCircuit
    rw [if_neg (by rw [hval]; simp)]
    obtain ⟨kind, k1, k2, _⟩ := kind_of_input hi hval
    rw [k1]
    simp only
    have hv := structure_valid hN.topo hc hN.structure_
    rcases solve_total hv false _ _ perms (matrixOf_holds hv _ (equations_has hN inp k2).1.len) hp (toVec N (equations N inp kind).1.rhs)
      (by simp [toVec]) with h | ⟨x, h, _⟩
    · left; rw [h]
    · right; rw [h]; exact ⟨_, rfl⟩

/-- **C20, voltages and currents of the network.** The net current that the reported sources, shunts and branches supply to a bus with faults
obeys, together with the reported voltage, the law of the fault with the admittance of all faults of the bus in parallel: the faulted phases
have the prescribed voltages and the healthy phases take no current. At a bus without faults it vanishes. For any number of faults. -/
theorem supplied_law {N : PfNet s} (hN : N.Valid) (hc : FillClosed N.T) {inp : ScInput} (hi : inp.Valid N) (perms : List (BlockPerm s.phases))
    (hp : perms.length = N.T.nBus) {out : ScOut s} (h : shortCircuit N inp perms = .ok out) {b : Nat} (hb : b < N.T.nBus) :
    (∀ k f, FaultAt inp b k f → FaultLaw f.type f.phase (parallel inp b) (out.u b) (supplied N out b)) ∧
    (b ∉ inp.faultBus → supplied N out b = 0) := by
  obtain ⟨kind, x, k1, _, k2, hx, rfl, _⟩ := run_of_ok hN hc hi perms hp h
  rw [supplied_fault hN hi k1 x hx hb, (results_spec N inp k1 _ x (equations_has hN inp k1).2.2 hi.bus).1]
  constructor
  · intro k f hf
    rw [← (k2 f (List.mem_of_getElem? hf.2)).1, parallel_eq hi]
    exact busFault_law k1 _ (onBus_pos hf.1) _ _ _
  · intro hnb
    unfold faultOf
    rw [no_fault_nil hnb]
    cases kind <;> simp [busFault, anySolid, sumFinite] <;> rfl

/-- The source currents are those of the source behind its internal admittance, and the branch and shunt currents those of the admittances, at
the reported voltages. -/
theorem reported_currents {N : PfNet s} (hN : N.Valid) (hc : FillClosed N.T) {inp : ScInput} (hi : inp.Valid N) (perms : List (BlockPerm s.phases))
    (hp : perms.length = N.T.nBus) {out : ScOut s} (h : shortCircuit N inp perms = .ok out) :
    (∀ b k, N.sourceBus[k]? = some b → out.source k = dot s (yRef s (N.y1 k) (N.y0 k)) (spread s (inp.source k) - out.u b)) ∧
    out.branch = branchFlow N.T N.y.param (dot s) out.u ∧ out.shunt = shuntFlow N.T N.y.param (dot s) out.u := by
  obtain ⟨kind, x, k1, _, k2, hx, rfl, _⟩ := run_of_ok hN hc hi perms hp h
  obtain ⟨r1, r2, r3, r4, _⟩ := results_spec N inp k1 _ x (equations_has hN inp k1).2.2 hi.bus
  exact ⟨fun b k hk => r4 b k (hN.sources b (List.mem_of_getElem? hk)) hk, r2, r3⟩

/-- A possible state of the network: voltages `u` and a total fault current `i` at every bus that obey the law of the faults in parallel and
Kirchhoff's law with the sources, branches and shunts. -/
structure Physical (N : PfNet s) (inp : ScInput) (u i : Nat → CV s) : Prop where
  law : ∀ b, b < N.T.nBus → ∀ k f, FaultAt inp b k f → FaultLaw f.type f.phase (parallel inp b) (u b) (i b)
  healthy : ∀ b, b < N.T.nBus → b ∉ inp.faultBus → i b = 0
  balance : ∀ b, b < N.T.nBus →
    atBus N.sourceBus (fun k => dot s (yRef s (N.y1 k) (N.y0 k)) (spread s (inp.source k) - u b)) b +
      fromShunts N.T (shuntFlow N.T N.y.param (dot s) u) b = intoBranches N.T (branchFlow N.T N.y.param (dot s) u) b + i b

/-- **C20, the reported voltages are the only possible ones.** -/
theorem voltages_unique {N : PfNet s} (hN : N.Valid) (hc : FillClosed N.T) {inp : ScInput} (hi : inp.Valid N) (perms : List (BlockPerm s.phases))
    (hp : perms.length = N.T.nBus) {out : ScOut s} (h : shortCircuit N inp perms = .ok out) :
    Physical N inp out.u (supplied N out) ∧
    ∀ u i, Physical N inp u i → ∀ b, b < N.T.nBus → u b = out.u b ∧ i b = supplied N out b := by
  have hcur := reported_currents hN hc hi perms hp h
  have hlaw := fun b hb => supplied_law hN hc hi perms hp h (b := b) hb
  refine ⟨⟨fun b hb => (hlaw b hb).1, fun b hb => (hlaw b hb).2, fun b hb => ?_⟩, fun u i hu b hb => ?_⟩
  · rw [← hcur.2.1, ← hcur.2.2]
    have : atBus N.sourceBus (fun k => dot s (yRef s (N.y1 k) (N.y0 k)) (spread s (inp.source k) - out.u b)) b =
        atBus N.sourceBus out.source b := by
      rw [atBus_eq, atBus_eq]
      exact congrArg List.sum (List.map_congr_left fun k hk => (hcur.1 b k (mem_onBus.mp hk)).symm)
    rw [this]
    unfold supplied
    abel
  · obtain ⟨kind, x, k1, _, k2, hx, rfl, huniq⟩ := run_of_ok hN hc hi perms hp h
    have hpoint : ∀ b, b < N.T.nBus → ∃ z, busVoltage kind (anySolid (admittance inp) (onBus inp.faultBus b)) (onBus inp.faultBus b).length z = u b ∧
        busFault kind (anySolid (admittance inp) (onBus inp.faultBus b)) (onBus inp.faultBus b).length
          (sumFinite (admittance inp) (onBus inp.faultBus b)) z (sourceI N inp b) = i b := by
      intro b hb
      refine law_busFault k1 _ _ _ _ _ _ (fun hn => ?_) (fun hn => ?_)
      · obtain ⟨k, hk⟩ := List.exists_mem_of_length_pos hn
        obtain ⟨f, hf, _⟩ := fault_of_bus hi (mem_onBus.mp hk)
        rw [(k2 f (List.mem_of_getElem? hf.2)).1, ← parallel_eq hi]
        exact hu.law b hb k f hf
      · have hnb : b ∉ inp.faultBus := by
          intro hm
          obtain ⟨k, hk⟩ := List.getElem?_of_mem hm
          have := onBus_pos hk
          omega
        rw [no_fault_nil hnb]
        exact ⟨hu.healthy b hb hnb, rfl, rfl⟩
    choose! z hz using hpoint
    have hbr : ∀ v w : Nat → CV s, (∀ b, b < N.T.nBus → v b = w b) → ∀ b, b < N.T.nBus →
        busCurrent N.S N.y (dot s) v b = busCurrent N.S N.y (dot s) w b := by
      intro v w hvw b hb
      rw [busCurrent_eq hN.topo hN.structure_ (coherent_of_valid hN) (dot s) v b hb,
        busCurrent_eq hN.topo hN.structure_ (coherent_of_valid hN) (dot s) w b hb]
      exact Finset.sum_congr rfl fun c hc => by rw [hvw c (Finset.mem_range.mp hc)]
    have hsolz : Solves N (equations N inp kind).1 z := by
      rw [equations_mean hN inp k1]
      intro b hb
      rw [hbr (voltageOf inp kind z) u (fun c hc => (hz c hc).1) b hb, busCurrent_is_flow_of hN.topo hN.structure_ (coherent_of_valid hN) (dot s) u b hb]
      have e1 : voltageOf inp kind z b = u b := (hz b hb).1
      have e2 : faultOf N inp kind z b = i b := (hz b hb).2
      have hbal := hu.balance b hb
      rw [atBus_eq] at hbal
      have hph := physical_sum N ⟨inp.source, fun _ => 0⟩ (onBus N.sourceBus b) (u b)
      rw [e1, e2]
      have hs : ((onBus N.sourceBus b).map fun k => dot s (yRef s (N.y1 k) (N.y0 k)) (spread s (inp.source k) - u b)).sum =
          sourceI N inp b - dot s (sourceY N b) (u b) := hph
      rw [hs] at hbal
      rw [sub_add_eq_add_sub, sub_eq_iff_eq_add, ← hbal]
    have hzx := huniq z hsolz b hb
    rw [supplied_fault hN hi k1 x hx hb, (results_spec N inp k1 _ x (equations_has hN inp k1).2.2 hi.bus).1]
    unfold voltageOf faultOf
    rw [← hzx]
    exact ⟨(hz b hb).1.symm, (hz b hb).2.symm⟩

/-! ## The fault currents -/

/-- **C20, every reported fault current obeys the law of its fault**: with the reported voltage of its bus and its own admittance, for any number
of faults; the healthy phases carry no fault current. -/
theorem fault_laws {N : PfNet s} (hN : N.Valid) (hc : FillClosed N.T) {inp : ScInput} (hi : inp.Valid N) (perms : List (BlockPerm s.phases))
    (hp : perms.length = N.T.nBus) {out : ScOut s} (h : shortCircuit N inp perms = .ok out) {b k : Nat} {f : FaultParam} (hf : FaultAt inp b k f) :
    FaultLaw f.type f.phase f.y (out.u b) (out.fault k) := by
  obtain ⟨kind, x, k1, _, k2, hx, rfl, _⟩ := run_of_ok hN hc hi perms hp h
  have hb : b < N.T.nBus := hi.bus b (List.mem_of_getElem? hf.1)
  obtain ⟨r1, _, _, _, r5⟩ := results_spec N inp k1 _ x (equations_has hN inp k1).2.2 hi.bus
  rw [← (k2 f (List.mem_of_getElem? hf.2)).1, r5 b k hb hf.1, r1, (equations_has hN inp k1).2.2 b hb, admittance_of hf.2]
  refine finalFault_law k1 _ (onBus_pos hf.1) _ (fun hy => ?_) _ _ _
  exact (anySolid_iff hi b).mpr ⟨k, f, hf, hy⟩

theorem sum_single {V : Type} [AddCommMonoid V] (l : List Nat) (f : Nat → V) (k : Nat) (hn : l.Nodup) (hk : k ∈ l) (h : ∀ j ∈ l, j ≠ k → f j = 0) :
    (l.map f).sum = f k := by
  induction l with
  | nil => simp at hk
  | cons a l ih =>
    rw [List.nodup_cons] at hn
    rw [List.map_cons, List.sum_cons]
    rcases List.mem_cons.mp hk with rfl | hk'
    · have : (l.map f).sum = 0 := by
        apply List.sum_eq_zero
        intro v hv
        rw [List.mem_map] at hv
        obtain ⟨j, hj, rfl⟩ := hv
        exact h j (by simp [hj]) fun e => hn.1 (e ▸ hj)
      rw [this, add_zero]
    · rw [ih hn.2 hk' fun j hj => h j (by simp [hj]), h a (by simp) fun e => hn.1 (e ▸ hk'), zero_add]

theorem sum_apply {n : Nat} (l : List (Fin n → ℂ)) (p : Fin n) : l.sum p = (l.map (· p)).sum := by
  induction l with
  | nil => rfl
  | cons a l ih => simp [ih]

theorem sum_mul_right (l : List Nat) (f : Nat → ℂ) (c : ℂ) : (l.map fun k => f k * c).sum = (l.map f).sum * c := by
  induction l with
  | nil => simp
  | cons a l ih => simp [ih, add_mul]

/-- The source admittance does not couple the phases if its sequence admittances are equal. -/
theorem sourceY_uncoupled (N : PfNet .asym) (b : Nat) (h : ∀ i, N.sourceBus[i]? = some b → N.y0 i = N.y1 i) (u : CV .asym) (p : Fin Symm.asym.phases)
    (hu : u p = 0) : dot .asym (sourceY N b) u p = 0 := by
  have key : ∀ l : List Nat, (∀ k ∈ l, N.sourceBus[k]? = some b) → dot .asym ((l.map fun k => yRef .asym (N.y1 k) (N.y0 k)).sum) u p = 0 := by
    intro l
    induction l with
    | nil => intro _; simp
    | cons k l ih =>
      intro hl
      rw [List.map_cons, List.sum_cons, map_add, AddMonoidHom.add_apply, Pi.add_apply, ih fun j hj => hl j (by simp [hj]), add_zero,
        h k (hl k (by simp))]
      rw [dot_apply]
      refine Finset.sum_eq_zero fun j _ => ?_
      have hoff : ∀ (p j : Fin 3) (y : ℂ), p ≠ j → balancedMatrix ((2 * y + y) / 3) ((y - y) / 3) p j = 0 := fun p j y hpj => by
        unfold balancedMatrix; rw [if_neg hpj]; simp
      by_cases hpj : p = j
      · subst hpj; rw [hu, mul_zero]
      · have e : yRef .asym (N.y1 k) (N.y1 k) p j = 0 := hoff p j _ hpj
        rw [e, zero_mul]
  exact key _ fun k hk => mem_onBus.mp hk

/-- **C20, the reported fault currents add up to the supplied current**, at a bus with at most one fault without impedance, at most one
two-phase-to-ground fault with impedance, and, if a fault of one or two phases to ground has no impedance, without phase coupling in the
sources of the bus. What is missing, and wrong in the code: the other buses, see below. -/
theorem fault_balance_partial {N : PfNet s} (hN : N.Valid) (hc : FillClosed N.T) {inp : ScInput} (hi : inp.Valid N) (perms : List (BlockPerm s.phases))
    (hp : perms.length = N.T.nBus) {out : ScOut s} (h : shortCircuit N inp perms = .ok out) {b : Nat} (hb : b < N.T.nBus) (hr : Regular N inp b) :
    Balance N inp out b := by
  obtain ⟨kind, x, k1, _, k2, hx, rfl, _⟩ := run_of_ok hN hc hi perms hp h
  obtain ⟨r1, _, _, _, r5⟩ := results_spec N inp k1 _ x (equations_has hN inp k1).2.2 hi.bus
  have hsup := supplied_fault hN hi k1 x hx hb
  suffices hsum : atBus inp.faultBus (results N inp kind (equations N inp kind).2 x).fault b = faultOf N inp kind x b by
    unfold Balance
    rw [hsum, ← hsup]
    unfold supplied
    abel
  rw [atBus_eq]
  have hcnt := (equations_has hN inp k1).2.2 b hb
  have hmap : (onBus inp.faultBus b).map (results N inp kind (equations N inp kind).2 x).fault = (onBus inp.faultBus b).map fun k =>
      finalFault kind (admittance inp k) (if anySolid (admittance inp) (onBus inp.faultBus b) then 1 else 0) (onBus inp.faultBus b).length (x b)
        (sourceI N inp b - dot s (sourceY N b) (voltageOf inp kind x b)) (sourceI N inp b) :=
    List.map_congr_left fun k hk => by rw [r5 b k hb (mem_onBus.mp hk), r1, hcnt]
  rw [hmap]
  unfold faultOf
  by_cases hs : Solid inp b
  · -- one fault without impedance takes everything
    rw [(anySolid_iff hi b).mpr hs]
    obtain ⟨k, f, hf, hy⟩ := hs
    rw [sum_single _ _ k (onBus_nodup _ _) (mem_onBus.mpr hf.1) (fun j hj hne => ?_)]
    · rw [admittance_of hf.2, hy]
      have hvs : voltageOf inp kind x b = busVoltage kind true (onBus inp.faultBus b).length (x b) := by
        unfold voltageOf
        rw [(anySolid_iff hi b).mpr ⟨k, f, hf, hy⟩]
      have hmem := List.mem_of_getElem? hf.2
      cases hkind : kind with
      | three =>
        rw [hkind] at hvs
        rw [hvs]
        funext p
        simp [finalFault, secondF, firstF, busFault, busVoltage]
        ring
      | single p =>
        have hsym : s = .asym := by
          cases s with
          | asym => rfl
          | sym => exact absurd ((hi.symmetric rfl f hmem).symm.trans ((k2 f hmem).2.1 ⟨p, hkind⟩)) (by decide)
        subst hsym
        have h0 := sourceY_uncoupled N b (hr.source k f hf hy (Or.inl ((k2 f hmem).2.1 ⟨p, hkind⟩))) (voltageOf inp kind x b) p
          (by rw [hvs, hkind]; simp [busVoltage])
        rw [← hkind]
        rw [hkind] at *
        funext r
        by_cases hrp : r = p
        · subst hrp
          simp [finalFault, secondF, firstF, busFault]
          rw [h0]; ring
        · simp [finalFault, secondF, firstF, busFault, hrp]
      | two p q =>
        have hpq : p ≠ q := by rw [hkind] at k1; exact k1
        funext r
        by_cases hrp : r = p
        · subst hrp; simp [finalFault, secondF, firstF, busFault, hpq]; ring
        · by_cases hrq : r = q
          · subst hrq; simp [finalFault, secondF, firstF, busFault, hrp]
          · simp [finalFault, secondF, firstF, busFault, hrp, hrq]
      | ground p q =>
        have hpq : p ≠ q := by rw [hkind] at k1; exact k1
        have hsym : s = .asym := by
          cases s with
          | asym => rfl
          | sym => exact absurd ((hi.symmetric rfl f hmem).symm.trans ((k2 f hmem).2.2 ⟨p, q, hkind⟩)) (by decide)
        subst hsym
        have hu0 := hr.source k f hf hy (Or.inr ((k2 f hmem).2.2 ⟨p, q, hkind⟩))
        have h0 := sourceY_uncoupled N b hu0 (voltageOf inp kind x b) p (by rw [hvs, hkind]; simp [busVoltage, hpq])
        have h1 := sourceY_uncoupled N b hu0 (voltageOf inp kind x b) q (by rw [hvs, hkind]; simp [busVoltage])
        rw [hkind] at h0 h1
        funext r
        by_cases hrp : r = p
        · subst hrp
          simp [finalFault, secondF, firstF, busFault, hpq]
          rw [h0]; ring
        · by_cases hrq : r = q
          · subst hrq
            simp [finalFault, secondF, firstF, busFault, hrp]
            rw [h1]; ring
          · simp [finalFault, secondF, firstF, busFault, hrp, hrq]
    · obtain ⟨g, hg, e⟩ := fault_of_bus hi (mem_onBus.mp hj)
      rw [e]
      cases hgy : g.y with
      | none => exact absurd (hr.solid j k g f hg hf hgy hy) hne
      | some w => cases kind <;> simp [finalFault, secondF, firstF]
  · have hany : anySolid (admittance inp) (onBus inp.faultBus b) = false := by
      cases h' : anySolid (admittance inp) (onBus inp.faultBus b) with
      | false => rfl
      | true => exact absurd ((anySolid_iff hi b).mp h') hs
    rw [hany]
    have hfin : ∀ k ∈ onBus inp.faultBus b, admittance inp k = some ((admittance inp k).getD 0) := by
      intro k hk
      obtain ⟨g, hg, e⟩ := fault_of_bus hi (mem_onBus.mp hk)
      rw [e]
      cases hgy : g.y with
      | none => exact absurd ⟨k, g, hg, hgy⟩ hs
      | some w => rfl
    rw [List.map_congr_left (fun k hk => by rw [hfin k hk])]
    unfold sumFinite
    cases hkind : kind with
    | three =>
      funext p
      rw [sum_apply, List.map_map]
      simp only [finalFault, secondF, firstF, busFault, Function.comp_def, Bool.false_eq_true, if_false, Nat.lt_irrefl]
      exact sum_mul_right _ _ _
    | single p =>
      funext r
      rw [sum_apply, List.map_map]
      by_cases hrp : r = p
      · subst hrp
        simp only [finalFault, secondF, firstF, busFault, Function.comp_def, Bool.false_eq_true, if_false, Nat.lt_irrefl, Function.update_self, if_true]
        exact sum_mul_right _ _ _
      · simp [finalFault, secondF, firstF, busFault, Function.comp_def, hrp]
    | two p q =>
      have hpq : p ≠ q := by rw [hkind] at k1; exact k1
      funext r
      rw [sum_apply, List.map_map]
      by_cases hrp : r = p
      · subst hrp
        simp only [finalFault, secondF, firstF, busFault, Function.comp_def, Bool.false_eq_true, if_false, Nat.lt_irrefl, Function.update_self, if_true,
          Function.update_of_ne hpq, ← mul_sub]
        exact sum_mul_right _ _ _
      · by_cases hrq : r = q
        · subst hrq
          simp only [finalFault, secondF, firstF, busFault, Function.comp_def, Bool.false_eq_true, if_false, Nat.lt_irrefl, Function.update_self, if_true,
            hrp, ← mul_sub]
          exact sum_mul_right _ _ _
        · simp [finalFault, secondF, firstF, busFault, Function.comp_def, hrp, hrq]
    | ground p q =>
      have hpq : p ≠ q := by rw [hkind] at k1; exact k1
      have hone : ∀ j ∈ onBus inp.faultBus b, ∀ k ∈ onBus inp.faultBus b, j = k := by
        intro j hj k hk
        obtain ⟨g, hg, _⟩ := fault_of_bus hi (mem_onBus.mp hj)
        obtain ⟨f, hf, _⟩ := fault_of_bus hi (mem_onBus.mp hk)
        exact hr.ground j k g f hg hf ((k2 g (List.mem_of_getElem? hg.2)).2.2 ⟨p, q, hkind⟩) fun i h' hh hy => hs ⟨i, h', hh, hy⟩
      have hnd := onBus_nodup inp.faultBus b
      match hl : onBus inp.faultBus b with
      | [] => simp [busFault]
      | [k] =>
        funext r
        by_cases hrp : r = p
        · subst hrp; simp [finalFault, secondF, firstF, busFault, hpq]; ring
        · by_cases hrq : r = q
          · subst hrq; simp [finalFault, secondF, firstF, busFault, hrp]
          · simp [finalFault, secondF, firstF, busFault, hrp, hrq]
      | j :: k :: l =>
        exfalso
        rw [hl] at hnd hone
        have := hone j (by simp) k (by simp)
        subst this
        simp at hnd

end PGM.ShortCircuit
