import Verif.Output.Spec
import Verif.Output.Lemmas
import Mathlib.Tactic.FinCases
import Mathlib.Tactic.Ring

/-!
# C51: the records of the components
-/

namespace PGM.Output

open PGM.Container PGM.Input PGM.Update PGM.Topology PGM.PowerFlow PGM.Component

variable {K : Type} {σ : Symm}

/-! ## Lemmas -/

theorem branchResult_id {A : Attr} {O : Objects} {sol : List (Sol σ)} {x : Comp K} {s : Nat} {r : BranchOut σ}
    (h : branchResult A O sol x s = some r) : r.id = x.elem.id := by
  unfold branchResult at h
  cases hm : O.branch s with
  | none => rw [hm] at h; simp only [Option.some.injEq] at h; rw [← h]; rfl
  | some m =>
    rw [hm] at h
    simp only [bind, Option.bind_eq_some_iff, Option.some.injEq] at h
    obtain ⟨v, _, hv⟩ := h
    rw [← hv]; rfl

theorem branch3Result_id {A : Attr} {O : Objects} {sol : List (Sol σ)} {x : Comp K} {s : Nat} {r : Branch3Out σ}
    (h : branch3Result A O sol x s = some r) : r.id = x.elem.id := by
  unfold branch3Result at h
  cases hm : O.branch3 s with
  | none => rw [hm] at h; simp only [Option.some.injEq] at h; rw [← h]; rfl
  | some m =>
    rw [hm] at h
    simp only [bind, Option.bind_eq_some_iff, Option.some.injEq] at h
    obtain ⟨_, _, _, _, _, _, hv⟩ := h
    rw [← hv]; rfl

theorem applResult_id {A : Attr} {member : Sol σ → List (ApplSol σ)} {coup : Nat → Option (Nat × Nat)} {sol : List (Sol σ)} {x : Comp K} {s : Nat}
    {r : ApplOut σ} (h : applResult member coup A sol x s = some r) : r.id = x.elem.id := by
  unfold applResult at h
  cases hm : coup s with
  | none => rw [hm] at h; simp only [Option.some.injEq] at h; rw [← h]; rfl
  | some m =>
    rw [hm] at h
    simp only [bind, Option.bind_eq_some_iff, Option.some.injEq] at h
    obtain ⟨v, _, hv⟩ := h
    rw [← hv]; rfl

theorem at2_some {β : Type} {sol : List (Sol σ)} {member : Sol σ → List β} {m : Nat × Nat} {x : Sol σ} (h1 : sol[m.1]? = some x)
    (h2 : m.2 < (member x).length) : ∃ v, at2 sol member m = some v := by
  refine ⟨(member x)[m.2], ?_⟩
  simp [at2, h1, h2]


theorem seq_position {D : CompType → List (Elem K)} {c : Container (Comp K)} (h : build D = .ok c) {t : CompType} {e : Elem K} {k : Nat}
    (hk : (D t)[k]? = some e) : seqById (baseOf t) c e.id = some (position D t k) := by
  have hlen : c.vectors.length = 22 := (build_inv h).ref.len
  have hcnt : ∀ cls t', cnt isBaseOf cls c (group t') = if isBaseOf cls (group t') then (D t').length else 0 := by
    intro cls t'
    simp [cnt, List.getD_eq_getElem?_getD, build_contents D c h t']
  have hg : group t < 22 + 1 := by have := group_lt t; omega
  have : getSeq isBaseOf (baseOf t) c ⟨group t, k⟩ = some (psum (cnt isBaseOf (baseOf t) c) (group t) + k) := by
    simp [getSeq, cumSize_tab, hlen, hg]
  simp only [seqById, map_eq h hk, this, bind, Option.bind_some, Option.some.injEq, position]
  congr 1
  have h0 := hcnt (baseOf t) .node
  have h1 := hcnt (baseOf t) .line
  have h2 := hcnt (baseOf t) .asymLine
  have h3 := hcnt (baseOf t) .link
  have h4 := hcnt (baseOf t) .genericBranch
  have h5 := hcnt (baseOf t) .transformer
  have h6 := hcnt (baseOf t) .threeWindingTransformer
  have h7 := hcnt (baseOf t) .shunt
  have h8 := hcnt (baseOf t) .source
  have h9 := hcnt (baseOf t) .symGen
  have h10 := hcnt (baseOf t) .asymGen
  have h11 := hcnt (baseOf t) .symLoad
  have h12 := hcnt (baseOf t) .asymLoad
  have h13 := hcnt (baseOf t) .symPowerSensor
  have h14 := hcnt (baseOf t) .asymPowerSensor
  have h15 := hcnt (baseOf t) .symVoltageSensor
  have h16 := hcnt (baseOf t) .asymVoltageSensor
  have h17 := hcnt (baseOf t) .symCurrentSensor
  have h18 := hcnt (baseOf t) .asymCurrentSensor
  have h19 := hcnt (baseOf t) .fault
  have h20 := hcnt (baseOf t) .tapRegulator
  clear hcnt this
  cases t <;> simp only [group, baseOf, isBaseOf] at h0 h1 h2 h3 h4 h5 h6 h7 h8 h9 h10 h11 h12 h13 h14 h15 h16 h17 h18 h19 h20 ⊢ <;>
    simp [psum, family, branchTypes, h0, h1, h2, h3, h4, h5, h6, h7, h8, h9, h10, h11, h12, h13, h14, h15, h16, h17, h18, h19, h20, Nat.add_assoc]

/-- Two nodes have the same number only if they are the same. -/
theorem node_seq {D : CompType → List (Elem K)} {c : Container (Comp K)} (h : build D = .ok c) {e : Elem K} {k : Nat}
    (hk : (D .node)[k]? = some e) : seqById .node c e.id = some k := by
  have := seq_position h hk
  simpa [position, family, baseOf] using this

theorem node_of_ref {D : CompType → List (Elem K)} {c : Container (Comp K)} (h : build D = .ok c) {t : CompType} {e : Elem K} (he : e ∈ D t)
    {id : Int} (hr : (id, [CompType.node]) ∈ refs t e) : ∃ (k : Nat) (e' : Elem K), (D .node)[k]? = some e' ∧ e'.id = id := by
  obtain ⟨t', ht', e', he', hid⟩ := ((build_iff_valid D).mp ⟨c, h⟩).resolved t e he _ hr
  simp only [List.mem_singleton] at ht'
  subst ht'
  obtain ⟨k, hk⟩ := List.mem_iff_getElem?.mp he'
  exact ⟨k, e', hk, hid⟩

/-- What `add_appliance_injection` adds for one appliance. -/
noncomputable def injected (member : Sol σ → List (ApplSol σ)) (coup : Nat → Option (Nat × Nat)) (sol : List (Sol σ)) (s : Nat) : CV σ :=
  match coup s with
  | none => 0
  | some m => ((at2 sol member m).map ApplSol.s).getD 0

theorem addInjection_eq {cls : Cls} {member : Sol σ → List (ApplSol σ)} {coup : Nat → Option (Nat × Nat)} {c : Container (Comp K)}
    {sol : List (Sol σ)} {s n : Nat} (hn : registered cls c (applianceNode c) s = some n)
    (hf : ∀ m, coup s = some m → ∃ r, at2 sol member m = some r) (acc : Nat → CV σ) :
    addInjection cls member coup c sol acc s = some fun x => acc x + if x = n then injected member coup sol s else 0 := by
  cases hm : coup s with
  | none => simp [addInjection, injected, hm]
  | some m =>
    obtain ⟨r, hr⟩ := hf m hm
    simp only [addInjection, injected, hm, hr, hn, bind, Option.bind_some, Option.some.injEq, Option.map_some, Option.getD_some]
    funext x
    by_cases hx : x = n
    · subst hx; simp
    · simp [hx]

theorem applResult_eq {A : Attr} {member : Sol σ → List (ApplSol σ)} {coup : Nat → Option (Nat × Nat)} {sol : List (Sol σ)} {x : Comp K} {s : Nat}
    (hf : ∀ m, coup s = some m → ∃ r, at2 sol member m = some r) : ∃ r, applResult member coup A sol x s = some r ∧ r.id = x.elem.id ∧
      ∀ j, r.p j = basePower σ * (injected member coup sol s j).re * injectionDirection x.type ∧
        r.q j = basePower σ * (injected member coup sol s j).im * injectionDirection x.type := by
  cases hm : coup s with
  | none => exact ⟨applNull x, by simp [applResult, hm], rfl, fun j => by simp [injected, hm, applNull]⟩
  | some m =>
    obtain ⟨r, hr⟩ := hf m hm
    exact ⟨applOutput A x r, by simp [applResult, hm, hr], rfl, fun j => by simp [injected, hm, hr, applOutput]⟩

theorem fold_eq {ι : Type} (L : List ι) (f : (Nat → CV σ) → ι → Option (Nat → CV σ)) (nd : ι → Nat) (v : ι → CV σ)
    (h : ∀ s ∈ L, ∀ acc, f acc s = some fun x => acc x + if x = nd s then v s else 0) (acc : Nat → CV σ) :
    L.foldlM f acc = some fun x => acc x + (L.map fun s => if x = nd s then v s else 0).sum := by
  induction L generalizing acc with
  | nil => simp [List.foldlM]
  | cons s L ih =>
    rw [List.foldlM_cons, h s (by simp)]
    simp only [bind, Option.bind_some]
    rw [ih (fun s hs => h s (by simp [hs]))]
    simp [add_assoc]

/-- The appliance types that inject. -/
def injecting : List CompType := [.source, .symGen, .asymGen, .symLoad, .asymLoad]

theorem appl_fits {O : Objects} {sol : List (Sol σ)} (hf : Fits O sol) {t : CompType} {s : Nat} {m : Nat × Nat}
    (h : applCoupling O t s = some m) : ∃ r, at2 sol (applMember t) m = some r := by
  by_cases h1 : t = .source
  · subst h1
    obtain ⟨x, h1, h2⟩ := hf.source s m h
    exact at2_some (member := Sol.source) h1 h2
  · by_cases h2 : t = .shunt
    · subst h2
      obtain ⟨x, h1, h2⟩ := hf.shunt s m h
      exact at2_some (member := Sol.shunt) h1 h2
    · have h3 : applCoupling O t = O.loadGen := by cases t <;> first | rfl | contradiction
      have h4 : (applMember t : Sol σ → _) = Sol.loadGen := by cases t <;> first | rfl | contradiction
      rw [h3] at h
      rw [h4]
      obtain ⟨x, h1, h2⟩ := hf.loadGen s m h
      exact at2_some (member := Sol.loadGen) h1 h2

theorem refs_appl {t : CompType} (ht : t ∈ injecting) (e : Elem K) : (e.n1, [CompType.node]) ∈ refs t e := by
  unfold injecting at ht
  fin_cases ht <;> exact List.mem_singleton.mpr rfl

theorem scale_sum {ι : Type} (L : List ι) (F : ι → CV σ) (j : Fin σ.phases) (b d : ℝ) :
    b * ((L.map F).sum j).re * d = (L.map fun s => b * (F s j).re * d).sum ∧
    b * ((L.map F).sum j).im * d = (L.map fun s => b * (F s j).im * d).sum := by
  induction L with
  | nil => simp
  | cons x L ih =>
    simp only [List.map_cons, List.sum_cons, Pi.add_apply, Complex.add_re, Complex.add_im]
    rw [← ih.1, ← ih.2]
    constructor <;> ring

/-- What a type of appliances adds to the injections of the nodes. -/
theorem addInjections_eq {D : CompType → List (Elem K)} {c : Container (Comp K)} (h : build D = .ok c) (A : Attr) {O : Objects} {sol : List (Sol σ)}
    (hf : Fits O sol) {t : CompType} (ht : t ∈ injecting) :
    ∃ S : Nat → CV σ, (∀ acc, addInjections t (applMember t) (applCoupling O t) c sol acc = some fun x => acc x + S x) ∧
      ∀ (k : Nat) (e : Elem K), (D .node)[k]? = some e → ∀ j,
        basePower σ * (S k j).re * injectionDirection t = attached D e.id t (applRecords t A c O sol) (fun r => r.p j) ∧
        basePower σ * (S k j).im * injectionDirection t = attached D e.id t (applRecords t A c O sol) (fun r => r.q j) := by
  have ho : ∃ o, getStartIdx isBaseOf (baseOf t) (.only t) c = some o := by
    have hlen : c.vectors.length = 22 := (build_inv h).ref.len
    have hsub : subClsPos isBaseOf (.only t) 22 = group t := by cases t <;> decide
    have hg : group t < 22 + 1 := by have := group_lt t; omega
    exact ⟨psum (cnt isBaseOf (baseOf t) c) (group t), by simp [getStartIdx, cumSize_tab, hlen, hsub, hg]⟩
  obtain ⟨o, ho⟩ := ho
  have hseq : ∀ (k : Nat) (e : Elem K), (D t)[k]? = some e → seqById (baseOf t) c e.id = some (o + k) ∧
      ∃ n, registered (baseOf t) c (applianceNode c) (o + k) = some n ∧ seqById .node c e.n1 = some n := by
    intro k e hk
    obtain ⟨o', h1, h2, _, _, h5⟩ := seq_ok h hk
    rw [ho] at h1
    cases h1
    obtain ⟨k', e', hk', hid⟩ := node_of_ref h (List.mem_of_getElem? hk) (refs_appl ht e)
    have := node_seq h hk'
    rw [hid] at this
    exact ⟨h2, k', by rw [h5]; exact this, this⟩
  refine ⟨fun x => (((List.range (D t).length).map (o + ·)).map fun s =>
    if x = (registered (baseOf t) c (applianceNode c) s).getD 0 then injected (applMember t) (applCoupling O t) sol s else 0).sum, ?_, ?_⟩
  · intro acc
    unfold addInjections
    rw [ho, size_only h]
    simp only [bind, Option.bind_some]
    apply fold_eq
    intro s hs acc
    simp only [List.mem_map, List.mem_range] at hs
    obtain ⟨k, hk, rfl⟩ := hs
    obtain ⟨_, n, hn, _⟩ := hseq k _ (List.getElem?_eq_getElem hk)
    rw [addInjection_eq hn (fun m => appl_fits hf), hn]
    rfl
  · intro k e hk j
    have hrec : ∀ (i : Nat) (e' : Elem K), (D t)[i]? = some e' → ∃ r, (applRecords t A c O sol)[i]? = some (some r) ∧
        ∀ j, r.p j = basePower σ * (injected (applMember t) (applCoupling O t) sol (o + i) j).re * injectionDirection t ∧
          r.q j = basePower σ * (injected (applMember t) (applCoupling O t) sol (o + i) j).im * injectionDirection t := by
      intro i e' hi
      obtain ⟨r, hr1, _, hr2⟩ := applResult_eq (A := A) (x := (⟨t, e'⟩ : Comp K)) (s := o + i) (fun m => appl_fits (t := t) hf (m := m))
      refine ⟨r, ?_, hr2⟩
      unfold applRecords
      rw [produce_eq h hi (hseq i e' hi).1]
      simp [hr1]
    have hlen : (applRecords t A c O sol).length = (D t).length := produce_length h t _ _
    have hcond : ∀ (i : Nat) (e' : Elem K), (D t)[i]? = some e' →
        (k = (registered (baseOf t) c (applianceNode c) (o + i)).getD 0 ↔ e'.n1 = e.id) := by
      intro i e' hi
      obtain ⟨_, n, hn, hn'⟩ := hseq i e' hi
      rw [hn, Option.getD_some]
      constructor
      · intro hkn
        subst hkn
        obtain ⟨k', e'', hk', hid⟩ := node_of_ref h (List.mem_of_getElem? hi) (refs_appl ht e')
        have h1 := node_seq h hk'
        rw [hid, hn'] at h1
        cases h1
        rw [hk] at hk'
        cases hk'
        exact hid.symm
      · intro hid
        have h1 := node_seq h hk
        rw [← hid, hn'] at h1
        exact (Option.some.inj h1).symm
    obtain ⟨hre, him⟩ := scale_sum ((List.range (D t).length).map (o + ·)) (fun s =>
      if k = (registered (baseOf t) c (applianceNode c) s).getD 0 then injected (applMember t) (applCoupling O t) sol s else 0) j (basePower σ)
      (injectionDirection t)
    simp only
    rw [hre, him]
    unfold attached
    constructor <;>
    · congr 1
      apply List.ext_getElem
      · simp [hlen]
      · intro i h1 h2
        have hi : i < (D t).length := by simpa using h1
        have hg := List.getElem?_eq_getElem hi
        obtain ⟨r, hr1, hr2⟩ := hrec i _ hg
        obtain ⟨hr3, hr4⟩ := List.getElem?_eq_some_iff.mp hr1
        have hc := hcond i _ hg
        simp only [List.getElem_map, List.getElem_range, List.getElem_zip, hr4, Option.map_some, Option.getD_some, hr2]
        by_cases hcc : (D t)[i].n1 = e.id
        · rw [if_pos (hc.mpr hcc), if_pos hcc]
        · rw [if_neg (fun hx => hcc (hc.mp hx)), if_neg hcc]; simp

/-! ## C51 -/

/-- C51, branches. There is one record for every branch of the input, in the same order and with the same ID. A branch that the topology put nowhere is reported as not
energised, with zeros; another is reported with the result at the place that the topology assigned to it. Places are assigned by position: line, asymmetric line, link, generic branch,
transformer, each in the order of the input. -/
theorem branch_records {D : CompType → List (Elem K)} {c : Container (Comp K)} (h : build D = .ok c) (A : Attr) (O : Objects) (sol : List (Sol σ))
    (hf : Fits O sol) (t : CompType) (ht : t ∈ branchTypes) :
    (branchRecords t A c O sol).length = (D t).length ∧ ∀ (k : Nat) (e : Elem K), (D t)[k]? = some e →
      ∃ r, (branchRecords t A c O sol)[k]? = some (some r) ∧ r.id = e.id ∧
        (O.branch (position D t k) = none ∧ r.energized = false ∧ r.pFrom = 0 ∧ r.qFrom = 0 ∧ r.iFrom = 0 ∧ r.pTo = 0 ∧ r.qTo = 0 ∧ r.iTo = 0 ∨
          ∃ (m : Nat × Nat) (x : Sol σ) (b : BranchSol σ), O.branch (position D t k) = some m ∧ sol[m.1]? = some x ∧ x.branch[m.2]? = some b ∧
            r.energized = true ∧ ∀ j, r.pFrom j = basePower σ * (b.sF j).re ∧ r.qFrom j = basePower σ * (b.sF j).im ∧
              r.pTo j = basePower σ * (b.sT j).re ∧ r.qTo j = basePower σ * (b.sT j).im ∧
              r.iFrom j = 1000000 / (√3 * A.uRated e.n1) * ‖b.iF j‖ ∧
              (A.uRated e.n1 = A.uRated e.n2 ∨ t ∉ [CompType.line, .asymLine] → r.iTo j = 1000000 / (√3 * A.uRated e.n2) * ‖b.iT j‖)) := by
  refine ⟨produce_length h t _ _, ?_⟩
  intro k e hk
  have hres : (branchRecords t A c O sol)[k]? = some (branchResult A O sol ⟨t, e⟩ (position D t k)) := by
    unfold branchRecords
    rw [produce_eq h hk (seq_position h hk)]
    rfl
  rw [hres]
  have hbase : ∀ u : ℝ, baseCurrent u = 1000000 / (√3 * u) := by intro u; unfold baseCurrent; rw [div_div, mul_comm]
  cases hm : O.branch (position D t k) with
  | none => exact ⟨branchNull ⟨t, e⟩, by simp [branchResult, hm], rfl, .inl ⟨rfl, rfl, rfl, rfl, rfl, rfl, rfl, rfl⟩⟩
  | some m =>
    obtain ⟨x, h1, h2⟩ := hf.branch _ m hm
    have hb : at2 sol Sol.branch m = some x.branch[m.2] := by simp [at2, h1, h2]
    refine ⟨branchOutput A ⟨t, e⟩ x.branch[m.2], by simp [branchResult, hm, hb], rfl, .inr ⟨m, x, x.branch[m.2], rfl, h1, by simp [h2], rfl, ?_⟩⟩
    intro j
    refine ⟨rfl, rfl, rfl, rfl, by simp only [branchOutput, hbase], ?_⟩
    intro hu
    have : ratedTo A (⟨t, e⟩ : Comp K) = A.uRated e.n2 := by
      rcases hu with hu | hu
      · unfold ratedTo; split
        · exact hu
        · exact hu
        · rfl
      · unfold ratedTo; split
        · rename_i h0; simp only at h0; subst h0; simp at hu
        · rename_i h0; simp only at h0; subst h0; simp at hu
        · rfl
    simp only [branchOutput, this, hbase]

/-- C51, three-winding transformers. -/
theorem branch3_records {D : CompType → List (Elem K)} {c : Container (Comp K)} (h : build D = .ok c) (A : Attr) (O : Objects) (sol : List (Sol σ))
    (hf : Fits O sol) :
    (branch3Records A c O sol).length = (D .threeWindingTransformer).length ∧
      ∀ (k : Nat) (e : Elem K), (D .threeWindingTransformer)[k]? = some e →
      ∃ r, (branch3Records A c O sol)[k]? = some (some r) ∧ r.id = e.id ∧
        (O.branch3 k = none ∧ r.energized = false ∧ r.p = 0 ∧ r.q = 0 ∧ r.i = 0 ∨
          ∃ (m : Nat × (Fin 3 → Nat)) (x : Sol σ) (b : Fin 3 → BranchSol σ), O.branch3 k = some m ∧ sol[m.1]? = some x ∧
            (∀ i, x.branch[m.2 i]? = some (b i)) ∧ r.energized = true ∧ ∀ i j, r.p i j = basePower σ * ((b i).sF j).re ∧
              r.q i j = basePower σ * ((b i).sF j).im ∧
              r.i i j = 1000000 / (√3 * A.uRated ((![e.n1, e.n2, e.n3] : Fin 3 → Int) i)) * ‖(b i).iF j‖) := by
  refine ⟨produce_length h _ _ _, ?_⟩
  intro k e hk
  have hpos : position D .threeWindingTransformer k = k := by simp [position, family]
  have hres : (branch3Records A c O sol)[k]? = some (branch3Result A O sol ⟨.threeWindingTransformer, e⟩ k) := by
    unfold branch3Records
    rw [produce_eq h hk (seq_position h hk), hpos]
    rfl
  rw [hres]
  have hbase : ∀ u : ℝ, baseCurrent u = 1000000 / (√3 * u) := by intro u; unfold baseCurrent; rw [div_div, mul_comm]
  cases hm : O.branch3 k with
  | none => exact ⟨branch3Null ⟨.threeWindingTransformer, e⟩, by simp [branch3Result, hm], rfl, .inl ⟨rfl, rfl, rfl, rfl, rfl⟩⟩
  | some m =>
    obtain ⟨x, h1, h2⟩ := hf.branch3 _ m hm
    have hb : ∀ i, at2 sol Sol.branch (m.1, m.2 i) = some (x.branch[m.2 i]'(h2 i)) := by intro i; simp [at2, h1, h2]
    refine ⟨branch3Output A ⟨.threeWindingTransformer, e⟩ ![x.branch[m.2 0]'(h2 0), x.branch[m.2 1]'(h2 1), x.branch[m.2 2]'(h2 2)],
      by simp [branch3Result, hm, hb], rfl, .inr ⟨m, x, fun i => x.branch[m.2 i]'(h2 i), rfl, h1, fun i => by simp [h2 i], rfl, ?_⟩⟩
    intro i j
    fin_cases i <;> exact ⟨rfl, rfl, by simp [branch3Output, hbase, node3]⟩

/-- The list of appliance types. -/
def applianceTypes : List CompType := [.source, .shunt, .symGen, .asymGen, .symLoad, .asymLoad]

/-- C51, appliances. Sources and generators are reported with the power they inject, loads and shunts with the power they draw. -/
theorem appliance_records {D : CompType → List (Elem K)} {c : Container (Comp K)} (h : build D = .ok c) (A : Attr) (O : Objects) (sol : List (Sol σ))
    (hf : Fits O sol) (t : CompType) (ht : t ∈ applianceTypes) :
    (applRecords t A c O sol).length = (D t).length ∧ ∀ (k : Nat) (e : Elem K), (D t)[k]? = some e →
      ∃ r, (applRecords t A c O sol)[k]? = some (some r) ∧ r.id = e.id ∧
        ∃ (place : Option (Nat × Nat)) (member : Sol σ → List (ApplSol σ)) (sign : ℝ),
          (t = .source ∧ place = O.source k ∧ member = Sol.source ∧ sign = 1 ∨
            t = .shunt ∧ place = O.shunt k ∧ member = Sol.shunt ∧ sign = -1 ∨
            t ∈ [CompType.symGen, .asymGen] ∧ place = O.loadGen (position D t k) ∧ member = Sol.loadGen ∧ sign = 1 ∨
            t ∈ [CompType.symLoad, .asymLoad] ∧ place = O.loadGen (position D t k) ∧ member = Sol.loadGen ∧ sign = -1) ∧
          (place = none ∧ r.energized = false ∧ r.p = 0 ∧ r.q = 0 ∧ r.i = 0 ∨
            ∃ (m : Nat × Nat) (x : Sol σ) (b : ApplSol σ), place = some m ∧ sol[m.1]? = some x ∧ (member x)[m.2]? = some b ∧
              r.energized = A.on e.id ∧ ∀ j, r.p j = sign * (basePower σ * (b.s j).re) ∧ r.q j = sign * (basePower σ * (b.s j).im) ∧
                r.i j = 1000000 / (√3 * A.uRated e.n1) * ‖b.i j‖) := by
  refine ⟨produce_length h t _ _, ?_⟩
  intro k e hk
  have hres : (applRecords t A c O sol)[k]? = some (applResult (applMember t) (applCoupling O t) A sol ⟨t, e⟩ (position D t k)) := by
    unfold applRecords
    rw [produce_eq h hk (seq_position h hk)]
    rfl
  rw [hres]
  have hbase : ∀ u : ℝ, baseCurrent u = 1000000 / (√3 * u) := by intro u; unfold baseCurrent; rw [div_div, mul_comm]
  have key : ∃ r, applResult (applMember t) (applCoupling O t) A sol (⟨t, e⟩ : Comp K) (position D t k) = some r ∧ r.id = e.id ∧
      (applCoupling O t (position D t k) = none ∧ r.energized = false ∧ r.p = 0 ∧ r.q = 0 ∧ r.i = 0 ∨
        ∃ (m : Nat × Nat) (x : Sol σ) (b : ApplSol σ), applCoupling O t (position D t k) = some m ∧ sol[m.1]? = some x ∧
          (applMember t x)[m.2]? = some b ∧ r.energized = A.on e.id ∧ ∀ j, r.p j = injectionDirection t * (basePower σ * (b.s j).re) ∧
            r.q j = injectionDirection t * (basePower σ * (b.s j).im) ∧ r.i j = 1000000 / (√3 * A.uRated e.n1) * ‖b.i j‖) := by
    cases hm : applCoupling O t (position D t k) with
    | none => exact ⟨applNull ⟨t, e⟩, by simp [applResult, hm], rfl, .inl ⟨rfl, rfl, rfl, rfl, rfl⟩⟩
    | some m =>
      obtain ⟨b, hb⟩ := appl_fits hf hm
      have hb' := hb
      simp only [at2, bind, Option.bind_eq_some_iff] at hb'
      obtain ⟨x, h1, h2⟩ := hb'
      refine ⟨applOutput A ⟨t, e⟩ b, by simp [applResult, hm, hb], rfl, .inr ⟨m, x, b, rfl, h1, h2, rfl, ?_⟩⟩
      intro j
      exact ⟨by simp only [applOutput]; ring, by simp only [applOutput]; ring, by simp only [applOutput, hbase]⟩
  obtain ⟨r, hr1, hr2, hr3⟩ := key
  refine ⟨r, by rw [hr1], hr2, applCoupling O t (position D t k), applMember t, injectionDirection t, ?_, hr3⟩
  unfold applianceTypes at ht
  fin_cases ht
  · exact .inl ⟨rfl, by simp [position, family, applCoupling], rfl, rfl⟩
  · exact .inr (.inl ⟨rfl, by simp [position, family, applCoupling], rfl, rfl⟩)
  · exact .inr (.inr (.inl ⟨by decide, rfl, rfl, rfl⟩))
  · exact .inr (.inr (.inl ⟨by decide, rfl, rfl, rfl⟩))
  · exact .inr (.inr (.inr ⟨by decide, rfl, rfl, rfl⟩))
  · exact .inr (.inr (.inr ⟨by decide, rfl, rfl, rfl⟩))

/-! ## C50 -/

/-- C50. For every input from which a model can be built: an energised node is reported with the active and reactive power that is the total reported for the sources and
generators at it, minus the total reported for its loads. Shunts do not count. -/
theorem node_power {D : CompType → List (Elem K)} {c : Container (Comp K)} (h : build D = .ok c) (A : Attr) (O : Objects) (sol : List (Sol σ))
    (hf : Fits O sol) (k : Nat) (e : Elem K) (hk : (D .node)[k]? = some e) :
    ∃ r, (nodeRecords A c O sol)[k]? = some (some r) ∧ r.id = e.id ∧
      (r.energized = true → ∀ j,
        (let total := fun (val : ApplOut σ → ℝ) (t : CompType) => attached D e.id t (applRecords t A c O sol) val
         r.p j = total (fun x => x.p j) .source + total (fun x => x.p j) .symGen + total (fun x => x.p j) .asymGen
            - total (fun x => x.p j) .symLoad - total (fun x => x.p j) .asymLoad ∧
          r.q j = total (fun x => x.q j) .source + total (fun x => x.q j) .symGen + total (fun x => x.q j) .asymGen
            - total (fun x => x.q j) .symLoad - total (fun x => x.q j) .asymLoad)) ∧
      (r.energized = false → r.uPu = 0 ∧ r.u = 0 ∧ r.uAngle = 0 ∧ r.p = 0 ∧ r.q = 0) := by
  have hres : (nodeRecords A c O sol)[k]? = some (nodeResult A c O sol ⟨.node, e⟩ k) := by
    unfold nodeRecords
    rw [produce_eq h hk (node_seq h hk)]
    rfl
  rw [hres]
  cases hm : O.node k with
  | none =>
    refine ⟨nodeNull ⟨.node, e⟩, by simp [nodeResult, hm], rfl, ?_, fun _ => ⟨rfl, rfl, rfl, rfl, rfl⟩⟩
    intro hx; simp [nodeNull] at hx
  | some m =>
    obtain ⟨x, h1, h2, _⟩ := hf.node k m hm
    obtain ⟨u, hu⟩ := at2_some (member := Sol.u) h1 h2
    obtain ⟨S1, a1, b1⟩ := addInjections_eq h A hf (t := .source) (by decide)
    obtain ⟨S2, a2, b2⟩ := addInjections_eq h A hf (t := .symLoad) (by decide)
    obtain ⟨S3, a3, b3⟩ := addInjections_eq h A hf (t := .symGen) (by decide)
    obtain ⟨S4, a4, b4⟩ := addInjections_eq h A hf (t := .asymLoad) (by decide)
    obtain ⟨S5, a5, b5⟩ := addInjections_eq h A hf (t := .asymGen) (by decide)
    simp only [applMember, applCoupling] at a1 a2 a3 a4 a5
    have hinj : nodeInjections c O sol = some fun x => 0 + S1 x + S2 x + S3 x + S4 x + S5 x := by
      unfold nodeInjections
      rw [a1]; simp only [bind, Option.bind_some]
      rw [a2]; simp only [Option.bind_some]
      rw [a3]; simp only [Option.bind_some]
      rw [a4]; simp only [Option.bind_some]
      rw [a5]
      simp
    refine ⟨nodeOutput A ⟨.node, e⟩ u (0 + S1 k + S2 k + S3 k + S4 k + S5 k), by simp [nodeResult, hm, hinj, hu], rfl, ?_, ?_⟩
    · intro _ j
      obtain ⟨p1, q1⟩ := b1 k e hk j
      obtain ⟨p2, q2⟩ := b2 k e hk j
      obtain ⟨p3, q3⟩ := b3 k e hk j
      obtain ⟨p4, q4⟩ := b4 k e hk j
      obtain ⟨p5, q5⟩ := b5 k e hk j
      simp only [injectionDirection] at p1 p2 p3 p4 p5 q1 q2 q3 q4 q5
      simp only [← p1, ← p2, ← p3, ← p4, ← p5, ← q1, ← q2, ← q3, ← q4, ← q5, nodeOutput, Pi.add_apply, Pi.zero_apply, Complex.add_re,
        Complex.add_im, Complex.zero_re, Complex.zero_im]
      constructor <;> ring
    · intro hx; simp [nodeOutput] at hx

/-- C51, nodes: the voltage of the place that the topology assigned to the node, in per unit, in volt (line-to-line for symmetric, line-to-ground for asymmetric calculations) and in
radians. -/
theorem node_records {D : CompType → List (Elem K)} {c : Container (Comp K)} (h : build D = .ok c) (A : Attr) (O : Objects) (sol : List (Sol σ))
    (hf : Fits O sol) :
    (nodeRecords A c O sol).length = (D .node).length ∧ ∀ (k : Nat) (e : Elem K), (D .node)[k]? = some e →
      ∃ r, (nodeRecords A c O sol)[k]? = some (some r) ∧ r.id = e.id ∧
        (O.node k = none ∧ r.energized = false ∧ r.u = 0 ∨
          ∃ (m : Nat × Nat) (x : Sol σ) (u : CV σ), O.node k = some m ∧ sol[m.1]? = some x ∧ x.u[m.2]? = some u ∧ r.energized = true ∧
            ∀ j, r.uPu j = ‖u j‖ ∧ r.uAngle j = (u j).arg ∧
              r.u j = (match σ with | .sym => A.uRated e.id | .asym => A.uRated e.id / √3) * ‖u j‖) := by
  refine ⟨produce_length h _ _ _, ?_⟩
  intro k e hk
  obtain ⟨r, hr1, hr2, _, hr4⟩ := node_power h A O sol hf k e hk
  refine ⟨r, hr1, hr2, ?_⟩
  have hres : (nodeRecords A c O sol)[k]? = some (nodeResult A c O sol ⟨.node, e⟩ k) := by
    unfold nodeRecords
    rw [produce_eq h hk (node_seq h hk)]
    rfl
  rw [hres] at hr1
  have hr := Option.some.inj hr1
  unfold nodeResult at hr
  cases hm : O.node k with
  | none =>
    rw [hm] at hr
    simp only [Option.some.injEq] at hr
    subst hr
    exact .inl ⟨rfl, rfl, rfl⟩
  | some m =>
    rw [hm] at hr
    simp only [bind, Option.bind_eq_some_iff, Option.some.injEq] at hr
    obtain ⟨inj, _, u, hu, hr⟩ := hr
    subst hr
    simp only [at2, bind, Option.bind_eq_some_iff] at hu
    obtain ⟨x, h1, h2⟩ := hu
    refine .inr ⟨m, x, u, rfl, h1, h2, rfl, ?_⟩
    intro j
    refine ⟨rfl, rfl, ?_⟩
    cases σ
    · simp [nodeOutput, uScale]
    · simp only [nodeOutput, uScale]; ring

end PGM.Output
