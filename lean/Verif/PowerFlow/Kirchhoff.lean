import Verif.PowerFlow.ResultLemmas

/-!
# Power flow results satisfy Kirchhoff's current law (C17)
-/

namespace PGM.PowerFlow

open PGM.YBus PGM.Component

variable {s : Symm}

/-! ## Specification -/

/-- The sum of the currents of all appliances at a bus, given the bus of every appliance. -/
def atBus (bus : List Nat) (i : Nat → CV s) (b : Nat) : CV s := (bus.zipIdx.map fun x => if x.1 = b then i x.2 else 0).sum

/-- Kirchhoff's current law at a bus, in terms of what is reported: what sources, loads and generators inject, and what shunts
inject, flows into the branches. -/
def Kirchhoff (N : PfNet s) (out : PfOutput s) (b : Nat) : Prop :=
  atBus N.sourceBus (fun k => (out.source k).cur) b + atBus N.loadBus (fun k => (out.load k).cur) b +
    fromShunts N.T (out.shunt.map (·.cur)) b = intoBranches N.T (out.branch.map fun x => (x.iF, x.iT)) b

/-- An island with its matrix after any history of full and incremental updates. -/
structure PfNet.Valid (N : PfNet s) : Prop where
  topo : N.T.Valid
  structure_ : build N.T = some N.S
  matrix : ∃ (y0 : YBus (CM s)) (P : Param (CM s)) (incs : List (Increment (CM s))), N.y = incs.foldl (updateIncrement N.S) (updateAdmittance N.S y0 P)
  sources : ∀ b ∈ N.sourceBus, b < N.T.nBus
  loads : ∀ b ∈ N.loadBus, b < N.T.nBus

/-- The admittances of several sources on one bus do not cancel (they are positive resistances with reactances in reality). -/
def PfNet.SourcesOk (N : PfNet s) (b : Nat) : Prop :=
  2 ≤ N.sourceBus.count b → ((N.sourceBus.zipIdx.map fun x => if x.1 = b then N.y1 x.2 else 0).sum ≠ 0 ∧
    (s = .asym → (N.sourceBus.zipIdx.map fun x => if x.1 = b then N.y0 x.2 else 0).sum ≠ 0))

/-- The regulated generators for which a bus allocates power are generators of that bus. -/
def AllocOk (N : PfNet s) (alloc : Nat → PfOutput s → List (Nat × CV s)) : Prop :=
  ∀ b o, ∀ g ∈ alloc b o, N.loadBus[g.1]? = some b

/-! ## Lemmas -/

theorem atBus_eq (l : List Nat) (f : Nat → CV s) (b : Nat) : atBus l f b = ((onBus l b).map f).sum := (onBus_sum l f b).symm

theorem count_zipIdx (l : List Nat) (b o : Nat) : ((l.zipIdx o).map fun x => if x.1 = b then 1 else 0).sum = l.count b := by
  induction l generalizing o with
  | nil => rfl
  | cons a l ih =>
    rw [List.zipIdx_cons, List.map_cons, List.sum_cons, ih (o + 1), List.count_cons]
    by_cases hab : a = b
    · subst hab; simp [Nat.add_comm]
    · simp [hab]

theorem onBus_length (l : List Nat) (b : Nat) : (onBus l b).length = l.count b := by
  rw [← count_zipIdx l b 0, ← onBus_sum (V := Nat) l (fun _ => 1) b]
  simp

theorem coherent_of_valid {N : PfNet s} (h : N.Valid) : Coherent N.S N.y := by
  obtain ⟨y0, P, incs, e⟩ := h.matrix
  rw [e]
  exact coherent_history N.S y0 P incs

theorem sourcesOk_iff {N : PfNet s} {b : Nat} (h : N.SourcesOk b) (hl : 1 < (onBus N.sourceBus b).length) :
    ((onBus N.sourceBus b).map N.y1).sum ≠ 0 ∧ (s = .asym → ((onBus N.sourceBus b).map N.y0).sum ≠ 0) := by
  rw [onBus_length] at hl
  rw [onBus_sum, onBus_sum]
  exact h hl

theorem branch_currents (N : PfNet s) (u : Nat → CV s) :
    (branchOutput N u).map (fun x => (x.iF, x.iT)) = branchFlow N.T N.y.param (dot s) u := by
  unfold branchOutput
  rw [List.map_map]
  have hl : N.T.branches.length = (branchFlow N.T N.y.param (dot s) u).length := by simp [branchFlow]
  have : ((fun x : BranchOut s => (x.iF, x.iT)) ∘ fun b : (Option Nat × Option Nat) × (CV s × CV s) =>
      (⟨sideVoltage u b.1.1 * star b.2.1, sideVoltage u b.1.2 * star b.2.2, b.2.1, b.2.2⟩ : BranchOut s)) = Prod.snd := by
    funext b; rfl
  rw [this, List.map_snd_zip (by omega)]

theorem shunt_currents (N : PfNet s) (hv : N.T.Valid) (u : Nat → CV s) :
    (shuntOutput N u).map (·.cur) = shuntFlow N.T N.y.param (dot s) u := by
  unfold shuntOutput
  rw [List.map_map]
  have hl := (shuntFlow_spec N.T hv N.y.param (dot s) u).1
  have : ((fun x : SI s => x.cur) ∘ fun x : Nat × CV s => (⟨u x.1 * star x.2, x.2⟩ : SI s)) = Prod.snd := by
    funext b; rfl
  rw [this, List.map_snd_zip (by omega)]

theorem star_injection (N : PfNet s) (u : Nat → CV s) (b : Nat) (hu : ∀ p, u b p ≠ 0) :
    star (injection N u b / u b) = busCurrent N.S N.y (dot s) u b := by
  unfold injection
  funext p
  have := hu p
  simp only [Pi.star_apply, Pi.div_apply, Pi.mul_apply]
  rw [mul_div_assoc, div_self this, mul_one]
  simp

/-- Kirchhoff's law in terms of the row of the matrix. -/
theorem kirchhoff_iff {N : PfNet s} (hN : N.Valid) (inp : PfInput s) (type : Nat → LoadType)
    (alloc : Nat → PfOutput s → List (Nat × CV s)) (ha : AllocOk N alloc) (u : Nat → CV s) (b : Nat) (hb : b < N.T.nBus) :
    Kirchhoff N (pfResult N inp type alloc u) b ↔
      atBus N.sourceBus (fun k => ((pfResult N inp type alloc u).source k).cur) b +
        atBus N.loadBus (fun k => ((pfResult N inp type alloc u).load k).cur) b = busCurrent N.S N.y (dot s) u b := by
  obtain ⟨_, _, p3, p4, _, _⟩ := pfResult_bus N inp type alloc ha u b hb
  unfold Kirchhoff
  rw [p3, p4, branch_currents, shunt_currents N hN.topo,
    busCurrent_is_flow_of hN.topo hN.structure_ (coherent_of_valid hN) (dot s) u b hb, eq_sub_iff_add_eq]

/-! ## Properties -/

/-- At a bus with sources the law holds exactly, for every voltage vector and whatever the loads. -/
theorem kirchhoff_source_bus {N : PfNet s} (hN : N.Valid) (inp : PfInput s) (type : Nat → LoadType)
    (alloc : Nat → PfOutput s → List (Nat × CV s)) (ha : AllocOk N alloc) (u : Nat → CV s) (b : Nat)
    (hsrc : b ∈ N.sourceBus) (hok : N.SourcesOk b) (hu : ∀ p, u b p ≠ 0) :
    Kirchhoff N (pfResult N inp type alloc u) b := by
  have hb := hN.sources b hsrc
  rw [kirchhoff_iff hN inp type alloc ha u b hb]
  obtain ⟨p1, p2, p3, p4, p5, _⟩ := pfResult_bus N inp type alloc ha u b hb
  set r := pfResult N inp type alloc u
  rw [atBus_eq, atBus_eq]
  have hne : onBus N.sourceBus b ≠ [] := by
    obtain ⟨k, hk, hkb⟩ := List.getElem_of_mem hsrc
    exact List.ne_nil_of_mem (mem_onBus.mpr (List.getElem?_eq_some_iff.mpr ⟨hk, hkb⟩))
  have hmap : (onBus N.sourceBus b).map (fun k => (r.source k).cur) =
      (onBus N.sourceBus b).map (sourceCurrent N inp b (totalSource N b r)) := by
    apply List.map_congr_left
    intro k hk
    rw [p5 k (mem_onBus.mp hk)]
  rw [hmap, sourceCurrent_sum N inp b _ hne (sourcesOk_iff hok)]
  unfold totalSource
  rw [sub_add_cancel, p1, p2, star_injection N u b hu]

/-- At a bus without sources the law holds exactly if and only if the powers of the loads and generators add up to the power
that the network takes at the voltages. -/
theorem kirchhoff_other_bus {N : PfNet s} (hN : N.Valid) (inp : PfInput s) (type : Nat → LoadType) (u : Nat → CV s) (b : Nat)
    (hb : b < N.T.nBus) (hsrc : b ∉ N.sourceBus) (hu : ∀ p, u b p ≠ 0) :
    let out := pfResult N inp type (fun _ _ => []) u
    Kirchhoff N out b ↔ atBus N.loadBus (fun k => (out.load k).pow) b = out.injection b := by
  simp only
  have ha : AllocOk N (fun _ _ => []) := fun _ _ g hg => by simp at hg
  rw [kirchhoff_iff hN inp type _ ha u b hb]
  obtain ⟨p1, p2, p3, p4, _, p6⟩ := pfResult_bus N inp type _ ha u b hb
  set r := pfResult N inp type (fun _ _ => []) u
  have hempty : onBus N.sourceBus b = [] := by
    rw [List.eq_nil_iff_forall_not_mem]
    intro k hk
    exact hsrc (List.mem_of_getElem? (mem_onBus.mp hk))
  rw [atBus_eq, atBus_eq, atBus_eq, hempty, List.map_nil, List.sum_nil, zero_add, p2]
  have hpow : ((onBus N.loadBus b).map fun k => (r.load k).pow).sum =
      u b * star ((onBus N.loadBus b).map fun k => (r.load k).cur).sum := by
    have : ∀ l : List Nat, (∀ k ∈ l, N.loadBus[k]? = some b) →
        (l.map fun k => (r.load k).pow).sum = u b * star (l.map fun k => (r.load k).cur).sum := by
      intro l
      induction l with
      | nil => intro _; simp
      | cons a l ih =>
        intro h
        simp only [List.map_cons, List.sum_cons, star_add, mul_add]
        rw [ih (fun k hk => h k (by simp [hk])), p6 (fun _ _ => rfl) a (h a (by simp))]
        congr 1
        funext p
        have := hu p
        simp only [Pi.mul_apply, Pi.star_apply, loadResult, star_star]
        field_simp
    exact this _ (fun k hk => mem_onBus.mp hk)
  rw [hpow]
  unfold injection
  constructor
  · intro h; rw [h, mul_comm]
  · intro h
    funext p
    have hp := congrFun h p
    simp only [Pi.mul_apply, Pi.star_apply] at hp
    rw [mul_comm (star _) (u b p)] at hp
    have := mul_left_cancel₀ (hu p) hp
    exact star_injective this

/-- The result of a load or generator is the one computed at its bus. -/
theorem pfResult_load (N : PfNet s) (inp : PfInput s) (type : Nat → LoadType) (alloc : Nat → PfOutput s → List (Nat × CV s))
    (ha : AllocOk N alloc) (u : Nat → CV s) (bus : Nat) (hbus : bus < N.T.nBus) (k : Nat) (hk : N.loadBus[k]? = some bus) :
    ∃ o, o.u = u ∧ (pfResult N inp type alloc u).load k = (pfBus N inp type alloc o bus).load k := by
  have main : ∀ (l : List Nat) (out : PfOutput s), l.Nodup →
      (bus ∉ l → (l.foldl (pfBus N inp type alloc) out).load k = out.load k) ∧
      (bus ∈ l → ∃ o, o.u = out.u ∧ (l.foldl (pfBus N inp type alloc) out).load k = (pfBus N inp type alloc o bus).load k) := by
    intro l
    induction l with
    | nil => intro out _; simp
    | cons a l ih =>
      intro out hn
      rw [List.nodup_cons] at hn
      simp only [List.foldl_cons]
      obtain ⟨i1, i2⟩ := ih (pfBus N inp type alloc out a) hn.2
      obtain ⟨p1, _, _, _, p5, _⟩ := pfBus_spec N inp type alloc ha out a
      refine ⟨fun hb => ?_, fun hb => ?_⟩
      · rw [List.mem_cons, not_or] at hb
        rw [i1 hb.2, p5 k (by rw [hk]; exact fun e => hb.1 (Option.some.inj e))]
      · rw [List.mem_cons] at hb
        rcases hb with rfl | hb
        · exact ⟨out, rfl, i1 hn.1⟩
        · obtain ⟨o, ho, e⟩ := i2 hb
          exact ⟨o, ho.trans p1, e⟩
  obtain ⟨o, ho, e⟩ := (main _ { u := u, injection := injection N u, branch := branchOutput N u, shunt := shuntOutput N u, source := fun _ => ⟨0, 0⟩, load := fun _ => ⟨0, 0⟩ } List.nodup_range).2 (List.mem_range.mpr hbus)
  exact ⟨o, ho, e⟩

/-- What is reported for a load or generator: power and current of its type at the voltage of the bus, unless the allocation of
reactive power replaced it; then the allocated power and its current. -/
theorem pfBus_load (N : PfNet s) (inp : PfInput s) (type : Nat → LoadType) (alloc : Nat → PfOutput s → List (Nat × CV s))
    (o : PfOutput s) (bus k : Nat) (hk : N.loadBus[k]? = some bus) :
    (pfBus N inp type alloc o bus).load k = ⟨fun p => (loadResult (type k) (inp.sInj k p) (o.u bus p)).1,
        fun p => (loadResult (type k) (inp.sInj k p) (o.u bus p)).2⟩ ∨
      ∃ o', ∃ g ∈ alloc bus o', g.1 = k ∧ (pfBus N inp type alloc o bus).load k = ⟨g.2, star (g.2 / o.u bus)⟩ := by
  unfold pfBus
  simp only
  obtain ⟨a1, _, _, _, _, a6⟩ := loads_fold inp type bus (onBus N.loadBus bus) o
  set o1 := (onBus N.loadBus bus).foldl (loadStep inp type bus) o
  rw [sourceResult_eq]
  rw [(sources_fold bus (sourceCurrent N inp bus (totalSource N bus _)) (onBus N.sourceBus bus) _).2.2.2.2.1]
  have hfold : ∀ (gs : List (Nat × CV s)) (x : PfOutput s), x.u = o.u →
      (gs.foldl (regulateStep bus) x).load k = x.load k ∨
        ∃ g ∈ gs, g.1 = k ∧ (gs.foldl (regulateStep bus) x).load k = ⟨g.2, star (g.2 / o.u bus)⟩ := by
    intro gs
    induction gs with
    | nil => intro x _; exact Or.inl rfl
    | cons g gs ih =>
      intro x hx
      rw [List.foldl_cons]
      rcases ih (regulateStep bus x g) hx with h | ⟨g', hg', e1, e2⟩
      · by_cases hgk : g.1 = k
        · refine Or.inr ⟨g, by simp, hgk, ?_⟩
          rw [h, ← hgk, ← hx]
          simp [regulateStep]
        · left
          rw [h]
          have : k ≠ g.1 := fun e => hgk e.symm
          simp [regulateStep, this]
      · exact Or.inr ⟨g', by simp [hg'], e1, e2⟩
  rcases hfold (alloc bus o1) o1 a1 with h | ⟨g, hg, e1, e2⟩
  · left
    rw [h, a6, if_pos (mem_onBus.mpr hk)]
  · exact Or.inr ⟨o1, g, hg, e1, e2⟩

/-- Reported powers belong to reported currents, with regulated generators: for sources, loads, generators, branches and shunts.
Loads and generators that no allocation touches report the power of their type. -/
theorem reported_powers {N : PfNet s} (inp : PfInput s) (type : Nat → LoadType) (alloc : Nat → PfOutput s → List (Nat × CV s))
    (ha : AllocOk N alloc) (u : Nat → CV s) (b : Nat) (hb : b < N.T.nBus) (hu : ∀ p, u b p ≠ 0) :
    let out := pfResult N inp type alloc u
    (∀ k, N.sourceBus[k]? = some b → (out.source k).pow = u b * star (out.source k).cur) ∧
    (∀ k, N.loadBus[k]? = some b → (out.load k).pow = u b * star (out.load k).cur) ∧
    (∀ k, N.loadBus[k]? = some b → (∀ o, ∀ g ∈ alloc b o, g.1 ≠ k) →
      ∀ p, (out.load k).pow p = inp.sInj k p * (factor (type k) ‖u b p‖ : ℂ)) := by
  simp only
  obtain ⟨p1, p2, p3, p4, p5, _⟩ := pfResult_bus N inp type _ ha u b hb
  refine ⟨fun k hk => by rw [p5 k hk], fun k hk => ?_, fun k hk hno p => ?_⟩
  · obtain ⟨o, ho, e⟩ := pfResult_load N inp type alloc ha u b hb k hk
    rw [e]
    rcases pfBus_load N inp type alloc o b k hk with h | ⟨o', g, _, _, h⟩
    · rw [h, ho]
      funext p
      have := hu p
      simp only [Pi.mul_apply, Pi.star_apply, loadResult, star_star]
      field_simp
    · rw [h, ho]
      funext p
      have := hu p
      simp only [Pi.mul_apply, Pi.star_apply, Pi.div_apply, star_star]
      field_simp
  · obtain ⟨o, ho, e⟩ := pfResult_load N inp type alloc ha u b hb k hk
    rw [e]
    rcases pfBus_load N inp type alloc o b k hk with h | ⟨o', g, hg, hgk, h⟩
    · rw [h, ho]
      exact loadResult_eq _ _ _
    · exact absurd hgk (hno o' g hg)

/-- The powers reported for branches and shunts belong to the reported currents and the voltages at their buses. -/
theorem reported_flow_powers {N : PfNet s} (hv : N.T.Valid) (inp : PfInput s) (type : Nat → LoadType) (alloc : Nat → PfOutput s → List (Nat × CV s))
    (ha : AllocOk N alloc) (u : Nat → CV s) :
    let out := pfResult N inp type alloc u
    out.branch.length = N.T.branches.length ∧ out.shunt.length = N.T.shuntBus.length ∧
    (∀ (k : Nat) (f t : Option Nat) (x : BranchOut s), N.T.branches[k]? = some (f, t) → out.branch[k]? = some x →
      x.sF = (f.elim 0 u) * star x.iF ∧ x.sT = (t.elim 0 u) * star x.iT) ∧
    (∀ (k b : Nat) (x : SI s), N.T.shuntBus[k]? = some b → out.shunt[k]? = some x → x.pow = u b * star x.cur) := by
  simp only
  obtain ⟨p1, p2, p3, p4, _, _⟩ := pfResult_bus N inp type alloc ha u 0 hv.nonempty
  rw [p3, p4]
  have hb : (branchFlow N.T N.y.param (dot s) u).length = N.T.branches.length := by simp [branchFlow]
  have hs := (shuntFlow_spec N.T hv N.y.param (dot s) u).1
  refine ⟨by simp [branchOutput, hb], by simp [shuntOutput, hs], ?_, ?_⟩
  · intro k f t x hk hx
    unfold branchOutput at hx
    rw [List.getElem?_map, Option.map_eq_some_iff] at hx
    obtain ⟨⟨⟨f', t'⟩, i⟩, hz, rfl⟩ := hx
    rw [List.getElem?_zip_eq_some] at hz
    simp only at hz
    rw [hz.1] at hk
    cases hk
    constructor <;> cases f <;> cases t <;> simp [sideVoltage]
  · intro k b x hk hx
    unfold shuntOutput at hx
    rw [List.getElem?_map, Option.map_eq_some_iff] at hx
    obtain ⟨⟨b', i⟩, hz, rfl⟩ := hx
    rw [List.getElem?_zip_eq_some] at hz
    simp only at hz
    rw [hz.1] at hk
    cases hk
    rfl

end PGM.PowerFlow
