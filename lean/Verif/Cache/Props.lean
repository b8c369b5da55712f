import Verif.Cache.Lemmas
import Mathlib.Algebra.Field.Rat

/-!
# Property C11: cached topology and parameters never influence results
-/

set_option linter.unusedSectionVars false

namespace PGM.Cache

open PGM.Update

variable {K : Type} [Field K] [DecidableEq K]

/-! ## Specification -/

/-- Assumptions on the rest of the program: different components have different places in the math models, and `calc_param`
returns a parameter for each place of a component. -/
structure Env.Sound (E : Env K) : Prop where
  disjoint : ∀ top t k t' k' s, s ∈ E.slots top t k → s ∈ E.slots top t' k' → t = t' ∧ k = k'
  nodup : ∀ top t k, (E.slots top t k).Nodup
  enough : ∀ top sym t d k, (E.slots top t k).length ≤ (E.param sym t d).length

/-- The component types whose attributes enter the admittance parameters. -/
def HasParameters : CompType → Prop
  | .line | .asymLine | .link | .genericBranch | .transformer | .threeWindingTransformer | .shunt | .source => True
  | _ => False

/-! ## Lemmas -/

variable {E : Env K}

/-- The value that component `tk` assigns to place `s`. -/
def assigned (E : Env K) (top : E.Top) (sym : Bool) (comps : ∀ t, List (classOf K t).C) (tk : CompType × Nat) (s : Slot) :
    Option E.P :=
  match (comps tk.1)[tk.2]? with
  | none => none
  | some c =>
    (((E.slots top tk.1 tk.2).zip (E.param sym tk.1 (paramData K tk.1 c))).reverse.find? (fun sp => sp.1 = s)).map (·.2)

theorem foldl_update {P : Type} (l : List (Slot × P)) (y : Slot → Option P) (s : Slot) :
    (l.foldl (fun y sp => Function.update (β := fun _ => Option P) y sp.1 (some sp.2)) y) s =
      ((l.reverse.find? (fun sp => sp.1 = s)).map (·.2)).or (y s) := by
  induction l generalizing y with
  | nil => simp
  | cons a l ih =>
    simp only [List.foldl_cons, List.reverse_cons, List.find?_append]
    rw [ih]
    cases hf : l.reverse.find? (fun sp => sp.1 = s) with
    | some p => simp
    | none =>
      by_cases h : a.1 = s
      · subst h; simp
      · have : s ≠ a.1 := fun h' => h h'.symm
        simp [h, Function.update_of_ne this]

theorem writeComponent_eq (top : E.Top) (sym : Bool) (comps : ∀ t, List (classOf K t).C) (y : Slot → Option E.P)
    (tk : CompType × Nat) (s : Slot) :
    writeComponent E top sym comps y tk s = (assigned E top sym comps tk s).or (y s) := by
  unfold writeComponent assigned
  cases (comps tk.1)[tk.2]? with
  | none => simp
  | some c => exact foldl_update _ _ _

theorem assigned_none (top : E.Top) (sym : Bool) (comps : ∀ t, List (classOf K t).C) (tk : CompType × Nat) (s : Slot)
    (h : s ∉ E.slots top tk.1 tk.2) : assigned E top sym comps tk s = none := by
  unfold assigned
  cases (comps tk.1)[tk.2]? with
  | none => rfl
  | some c =>
    simp only [Option.map_eq_none_iff, List.find?_eq_none, List.mem_reverse, decide_eq_true_eq]
    rintro ⟨s', p⟩ hm rfl
    exact h (List.of_mem_zip hm).1

theorem assigned_some (hE : E.Sound) (top : E.Top) (sym : Bool) (comps : ∀ t, List (classOf K t).C) (tk : CompType × Nat)
    (s : Slot) (h : s ∈ E.slots top tk.1 tk.2) (hk : tk.2 < (comps tk.1).length) :
    ∃ p, assigned E top sym comps tk s = some p := by
  unfold assigned
  rw [List.getElem?_eq_getElem hk]
  simp only
  obtain ⟨i, hi, rfl⟩ := List.getElem_of_mem h
  have hlen := hE.enough top sym tk.1 (paramData K tk.1 (comps tk.1)[tk.2]) tk.2
  generalize hz : (E.slots top tk.1 tk.2).zip (E.param sym tk.1 (paramData K tk.1 (comps tk.1)[tk.2])) = z
  have hmem : ((E.slots top tk.1 tk.2)[i], (E.param sym tk.1 (paramData K tk.1 (comps tk.1)[tk.2]))[i]) ∈ z := by
    rw [← hz]
    refine List.mem_iff_getElem.mpr ⟨i, by rw [List.length_zip]; omega, ?_⟩
    simp
  cases hf : z.reverse.find? (fun sp => sp.1 = (E.slots top tk.1 tk.2)[i]) with
  | some p => exact ⟨p.2, rfl⟩
  | none =>
    rw [List.find?_eq_none] at hf
    have := hf _ (List.mem_reverse.mpr hmem)
    simp at this

theorem assigned_congr (top : E.Top) (sym : Bool) (comps comps' : ∀ t, List (classOf K t).C) (tk : CompType × Nat)
    (h : (comps' tk.1)[tk.2]?.map (paramData K tk.1) = (comps tk.1)[tk.2]?.map (paramData K tk.1)) (s : Slot) :
    assigned E top sym comps' tk s = assigned E top sym comps tk s := by
  unfold assigned
  cases h1 : (comps' tk.1)[tk.2]? with
  | none =>
    cases h2 : (comps tk.1)[tk.2]? with
    | none => rfl
    | some c => rw [h1, h2] at h; simp at h
  | some c' =>
    cases h2 : (comps tk.1)[tk.2]? with
    | none => rw [h1, h2] at h; simp at h
    | some c =>
      rw [h1, h2] at h
      simp only [Option.map_some, Option.some.injEq] at h
      simp only [h]

/-- A place without an owner in the list keeps its value. -/
theorem fold_write_other (top : E.Top) (sym : Bool) (comps : ∀ t, List (classOf K t).C) (L : List (CompType × Nat)) (s : Slot)
    (h : ∀ tk ∈ L, s ∉ E.slots top tk.1 tk.2) (y : Slot → Option E.P) :
    L.foldl (writeComponent E top sym comps) y s = y s := by
  induction L generalizing y with
  | nil => rfl
  | cons a L ih =>
    rw [List.foldl_cons, ih (fun tk htk => h tk (List.mem_cons_of_mem _ htk)), writeComponent_eq,
      assigned_none _ _ _ _ _ (h a (by simp))]
    simp

/-- A place with an owner in the list has the owner's value. -/
theorem fold_write_owner (hE : E.Sound) (top : E.Top) (sym : Bool) (comps : ∀ t, List (classOf K t).C)
    (L : List (CompType × Nat)) (s : Slot) (tk : CompType × Nat) (hm : tk ∈ L) (h : s ∈ E.slots top tk.1 tk.2)
    (hk : tk.2 < (comps tk.1).length) (y : Slot → Option E.P) :
    L.foldl (writeComponent E top sym comps) y s = assigned E top sym comps tk s := by
  induction L generalizing y with
  | nil => cases hm
  | cons a L ih =>
    rw [List.foldl_cons]
    by_cases hin : tk ∈ L
    · exact ih hin _
    · have hat : a = tk := by
        rcases List.mem_cons.mp hm with h | h
        · exact h.symm
        · exact absurd h hin
      subst hat
      rw [fold_write_other, writeComponent_eq]
      · obtain ⟨p, hp⟩ := assigned_some hE top sym comps a s h hk
        rw [hp]; rfl
      · rintro ⟨t', k'⟩ hb hs
        obtain ⟨h1, h2⟩ := hE.disjoint top _ _ _ _ s h hs
        apply hin
        have : a = (t', k') := Prod.ext h1 h2
        rw [this]; exact hb

theorem mem_all (comps : ∀ t, List (classOf K t).C) (tk : CompType × Nat) :
    tk ∈ paramTypes.flatMap (fun t => (List.range (comps t).length).map (fun k => (t, k))) ↔
      tk.1 ∈ paramTypes ∧ tk.2 < (comps tk.1).length := by
  obtain ⟨t, k⟩ := tk
  simp only [List.mem_flatMap, List.mem_map, List.mem_range, Prod.mk.injEq]
  constructor
  · rintro ⟨t', ht', k', hk', rfl, rfl⟩; exact ⟨ht', hk'⟩
  · rintro ⟨ht, hk⟩; exact ⟨t, ht, k, hk, rfl, rfl⟩

/-- The parameters depend only on the parameter data of the components. -/
theorem getMathParam_congr (hE : E.Sound) (top : E.Top) (sym : Bool) (comps comps' : ∀ t, List (classOf K t).C)
    (hl : ∀ t, (comps' t).length = (comps t).length) (s : Slot)
    (h : ∀ t k, t ∈ paramTypes → s ∈ E.slots top t k →
      (comps' t)[k]?.map (paramData K t) = (comps t)[k]?.map (paramData K t)) :
    getMathParam E top sym comps' s = getMathParam E top sym comps s := by
  unfold getMathParam
  by_cases hex : ∃ tk : CompType × Nat, tk.1 ∈ paramTypes ∧ tk.2 < (comps tk.1).length ∧ s ∈ E.slots top tk.1 tk.2
  · obtain ⟨tk, h1, h2, h3⟩ := hex
    rw [fold_write_owner hE top sym comps' _ s tk ((mem_all comps' tk).mpr ⟨h1, by rw [hl]; exact h2⟩) h3
      (by rw [hl]; exact h2), fold_write_owner hE top sym comps _ s tk ((mem_all comps tk).mpr ⟨h1, h2⟩) h3 h2]
    exact assigned_congr top sym comps comps' tk (h _ _ h1 h3) s
  · rw [fold_write_other, fold_write_other]
    · intro tk hm hs
      obtain ⟨h1, h2⟩ := (mem_all comps tk).mp hm
      exact hex ⟨tk, h1, h2, hs⟩
    · intro tk hm hs
      obtain ⟨h1, h2⟩ := (mem_all comps' tk).mp hm
      exact hex ⟨tk, h1, by rw [← hl]; exact h2, hs⟩

theorem mem_allTypes' (t : CompType) : t ∈ allTypes := by cases t <;> decide

/-- Refreshing the changed components gives the complete parameters. -/
theorem applyIncrement_eq (hE : E.Sound) (top : E.Top) (sym : Bool) (comps : ∀ t, List (classOf K t).C)
    (changed : CompType → List Nat) (hr : ∀ t k, k ∈ changed t → k < (comps t).length) (y : Slot → Option E.P)
    (hy : ∀ s, (∀ t k, t ∈ paramTypes → k ∈ changed t → s ∉ E.slots top t k) → y s = getMathParam E top sym comps s) :
    applyIncrement E top sym comps changed y = getMathParam E top sym comps := by
  funext s
  unfold applyIncrement
  have hmem : ∀ tk : CompType × Nat,
      tk ∈ allTypes.flatMap (fun t => if t ∈ paramTypes then (changed t).map (fun k => (t, k)) else []) ↔
      tk.1 ∈ paramTypes ∧ tk.2 ∈ changed tk.1 := by
    rintro ⟨t, k⟩
    simp only [List.mem_flatMap]
    constructor
    · rintro ⟨t', _, h⟩
      split at h
      · rename_i hp
        simp only [List.mem_map, Prod.mk.injEq] at h
        obtain ⟨k', hk', rfl, rfl⟩ := h
        exact ⟨hp, hk'⟩
      · cases h
    · rintro ⟨hp, hk⟩
      refine ⟨t, mem_allTypes' t, ?_⟩
      rw [if_pos hp]
      exact List.mem_map.mpr ⟨k, hk, rfl⟩
  by_cases hex : ∃ tk : CompType × Nat, tk.1 ∈ paramTypes ∧ tk.2 ∈ changed tk.1 ∧ s ∈ E.slots top tk.1 tk.2
  · obtain ⟨tk, h1, h2, h3⟩ := hex
    have hk := hr _ _ h2
    rw [fold_write_owner hE top sym comps _ s tk ((hmem tk).mpr ⟨h1, h2⟩) h3 hk]
    unfold getMathParam
    rw [fold_write_owner hE top sym comps _ s tk ((mem_all comps tk).mpr ⟨h1, hk⟩) h3 hk]
  · rw [fold_write_other]
    · exact hy s (fun t k ht hk hs => hex ⟨(t, k), ht, hk, hs⟩)
    · intro tk hm hs
      obtain ⟨h1, h2⟩ := (hmem tk).mp hm
      exact hex ⟨tk, h1, h2, hs⟩

/-- The invariant of the caches. -/
structure Coherent (st : State E) : Prop where
  range : ∀ t k, k ∈ st.model.status.changed t → k < (st.model.comps t).length
  cache : st.model.status.topo = true →
    ∃ top, st.top = some top ∧ E.build (connections st.model.comps) = some top ∧ ∀ sym,
      ((st.ybus sym).n = 0 ∧ st.solvers sym = 0) ∨
      ((st.ybus sym).n = E.n top ∧ st.solvers sym = E.n top ∧
        (valid st.model.status sym = true → (st.ybus sym).param = getMathParam E top sym st.model.comps) ∧
        (st.model.status.prev = some sym → ∀ s,
          (∀ t k, t ∈ paramTypes → k ∈ st.model.status.changed t → s ∉ E.slots top t k) →
          (st.ybus sym).param s = getMathParam E top sym st.model.comps s))

theorem connections_congr (m m' : Model (classOf K)) (hl : ∀ t, (m'.comps t).length = (m.comps t).length)
    (h : ∀ t (k : Nat), (m'.comps t)[k]?.map (topoView K t) = (m.comps t)[k]?.map (topoView K t)) :
    connections m'.comps = connections m.comps := by
  funext t
  apply List.ext_getElem?
  intro k
  simp only [connections, List.getElem?_map]
  exact h t k

theorem coherent_evolves (hE : E.Sound) (st : State E) (m' : Model (classOf K)) (h : Coherent st)
    (he : Evolves st.model m') : Coherent { st with model := m' } := by
  constructor
  · intro t k hk
    simp only at hk ⊢
    rw [he.len]
    rcases he.range t k hk with h1 | h1
    · exact h.range t k h1
    · exact h1
  · intro ht
    simp only at ht ⊢
    obtain ⟨h1, h2⟩ := he.topo ht
    obtain ⟨top, h3, h4, h5⟩ := h.cache h1
    refine ⟨top, h3, by rw [connections_congr st.model m' he.len h2]; exact h4, ?_⟩
    intro sym
    refine (h5 sym).imp id ?_
    rintro ⟨a1, a2, a3, a4⟩
    refine ⟨a1, a2, ?_, ?_⟩
    · intro hv
      obtain ⟨b1, b2⟩ := he.valid sym hv
      rw [a3 b1]
      funext s
      exact (getMathParam_congr hE top sym st.model.comps m'.comps he.len s (fun t k _ _ => b2 t k)).symm
    · intro hp s hs
      rw [he.prev] at hp
      rw [a4 hp s (fun t k ht hk => hs t k ht (he.keep t k hk))]
      refine (getMathParam_congr hE top sym st.model.comps m'.comps he.len s ?_).symm
      intro t k ht hsl
      exact he.tracked t k (fun hk => hs t k ht hk hsl)

theorem valid_setValid (s : Status CompType) (a b v : Bool) :
    valid (setValid s a v) b = if a = b then v else valid s b := by
  cases a <;> cases b <;> rfl

/-- The heart of `prepare_solvers`: given a coherent cache with a valid topology, afterwards the cache of symmetry `sym` is
complete and the cache is coherent. -/
theorem prepared (hE : E.Sound) (st : State E) (h : Coherent st) (ht : st.model.status.topo = true) (top : E.Top)
    (htop : st.top = some top) (sym : Bool) :
    let st' := conclude (refresh (prepareYBus st top sym) top sym) sym
    Coherent st' ∧ st'.model.comps = st.model.comps ∧ st'.model.index = st.model.index ∧
    E.build (connections st.model.comps) = some top ∧
    solverInput st' sym top = (top, E.n top, E.n top, getMathParam E top sym st.model.comps, st.model.comps) := by
  obtain ⟨top', h1, h2, h3⟩ := h.cache ht
  rw [htop, Option.some.injEq] at h1
  subst h1
  -- the parameters of the other symmetry do not change
  have hother : ∀ s', s' ≠ sym → (refresh (prepareYBus st top sym) top sym).ybus s' = st.ybus s' ∧
      (refresh (prepareYBus st top sym) top sym).solvers s' = st.solvers s' := by
    intro s' hs'
    unfold refresh prepareYBus
    split <;> split <;> (try split) <;> (try split) <;> simp [Function.update_of_ne hs']
  have hmodel : (refresh (prepareYBus st top sym) top sym).model = st.model ∧
      (refresh (prepareYBus st top sym) top sym).top = st.top := by
    unfold refresh prepareYBus
    split <;> split <;> (try split) <;> (try split) <;> exact ⟨rfl, rfl⟩
  have hmain : ((refresh (prepareYBus st top sym) top sym).ybus sym).n = E.n top ∧
      (refresh (prepareYBus st top sym) top sym).solvers sym = E.n top ∧
      ((refresh (prepareYBus st top sym) top sym).ybus sym).param = getMathParam E top sym st.model.comps := by
    have hinc : ∀ y, (∀ s, (∀ t k, t ∈ paramTypes → k ∈ st.model.status.changed t → s ∉ E.slots top t k) →
        y s = getMathParam E top sym st.model.comps s) →
        applyIncrement E top sym st.model.comps st.model.status.changed y = getMathParam E top sym st.model.comps :=
      fun y hy => applyIncrement_eq hE top sym _ _ h.range y hy
    by_cases hn : (st.ybus sym).n = 0
    · -- the Y buses are built
      have hsol : st.solvers sym = 0 := by
        rcases h3 sym with ⟨_, hs⟩ | ⟨a1, a2, _, _⟩
        · exact hs
        · omega
      unfold refresh prepareYBus
      rw [if_pos hn]
      simp only [hsol]
      by_cases hz : E.n top = 0
      · simp only [hz, ne_eq, not_true_eq_false, if_false]
        split
        · split
          · refine ⟨by simp [hz], by simp [hsol], ?_⟩
            simp only [Function.update_self]
            exact hinc _ (fun s _ => rfl)
          · exact ⟨by simp [hz], by simp [hsol], by simp⟩
        · exact ⟨by simp [hz], by simp [hsol], by simp⟩
      · rw [if_pos hz]
        exact ⟨by simp, by simp, by simp⟩
    · rcases h3 sym with ⟨hs, _⟩ | ⟨a1, a2, a3, a4⟩
      · exact absurd hs hn
      · unfold refresh prepareYBus
        rw [if_neg hn]
        simp only [a2, ne_eq, not_true_eq_false, if_false]
        split
        · split
          · rename_i hp
            refine ⟨by simp [a1], by simp [a2], ?_⟩
            simp only [Function.update_self]
            exact hinc _ (a4 hp)
          · exact ⟨by simp [a1], by simp [a2], by simp⟩
        · rename_i hv
          simp only [Bool.not_eq_true, Bool.not_eq_false', Bool.not_eq_eq_eq_not, Bool.not_true] at hv
          exact ⟨a1, a2, a3 (by simpa using hv)⟩
  obtain ⟨m1, m2, m3⟩ := hmain
  simp only
  refine ⟨⟨?_, ?_⟩, ?_, ?_, h2, ?_⟩
  · intro t k hk
    simp [conclude] at hk
  · intro _
    refine ⟨top, by simp only [conclude]; rw [hmodel.2]; exact htop, by simp only [conclude]; rw [hmodel.1]; exact h2, ?_⟩
    intro s'
    simp only [conclude, hmodel.1]
    by_cases hs : s' = sym
    · subst hs
      right
      exact ⟨m1, m2, fun _ => m3, fun _ s _ => by rw [m3]⟩
    · obtain ⟨o1, o2⟩ := hother s' hs
      rw [o1, o2]
      refine (h3 s').imp id ?_
      rintro ⟨a1, a2, a3, a4⟩
      refine ⟨a1, a2, ?_, ?_⟩
      · intro hv
        apply a3
        have hv' : valid (setValid st.model.status sym true) s' = true := by
          cases s' <;> exact hv
        rw [valid_setValid, if_neg (fun h => hs h.symm)] at hv'
        exact hv'
      · intro hp
        simp only [Option.some.injEq] at hp
        exact absurd hp.symm hs
  · simp only [conclude, hmodel.1]
  · simp only [conclude, hmodel.1]
  · simp only [solverInput, conclude, hmodel.1, m1, m2, m3]

/-- `prepare_solvers` keeps the components and the coherence and determines what a calculation sees. -/
theorem prepareSolvers_spec (hE : E.Sound) (st : State E) (h : Coherent st) (sym : Bool) :
    Coherent (prepareSolvers st sym).1 ∧ (prepareSolvers st sym).1.model.comps = st.model.comps ∧
    (prepareSolvers st sym).1.model.index = st.model.index ∧
    (prepareSolvers st sym).2 = E.build (connections st.model.comps) ∧
    ∀ top, (prepareSolvers st sym).2 = some top →
      solverInput (prepareSolvers st sym).1 sym top =
        (top, E.n top, E.n top, getMathParam E top sym st.model.comps, st.model.comps) := by
  unfold prepareSolvers
  by_cases ht : st.model.status.topo = true
  · obtain ⟨top, h1, h2, h3⟩ := h.cache ht
    obtain ⟨p1, p2, p3, p4, p5⟩ := prepared hE st h ht top h1 sym
    simp only [ht, if_true, Bool.not_true, Bool.false_eq_true, if_false, h1]
    refine ⟨p1, p2, p3, p4.symm, ?_⟩
    intro top' he
    cases he
    exact p5
  · simp only [ht, if_false]
    cases hb : E.build (connections st.model.comps) with
    | none =>
      have hr : rebuild st = (⟨{ st.model with status := { st.model.status with topo := false, sym := false, asym := false } },
          none, fun _ => ⟨0, fun _ => none⟩, fun _ => 0⟩, false) := by
        unfold rebuild; rw [hb]
      rw [hr]
      simp only [Bool.not_false, if_true]
      refine ⟨⟨?_, ?_⟩, rfl, rfl, rfl, by simp⟩
      · exact h.range
      · intro hc; cases hc
    | some top =>
      have hr : rebuild st = (⟨{ st.model with status := { st.model.status with topo := true, sym := false, asym := false } },
          some top, fun _ => ⟨0, fun _ => none⟩, fun _ => 0⟩, true) := by
        unfold rebuild; rw [hb]
      rw [hr]
      simp only [Bool.not_true, Bool.false_eq_true, if_false]
      have hco : Coherent (⟨{ st.model with status := { st.model.status with topo := true, sym := false, asym := false } },
          some top, fun _ => ⟨0, fun _ => none⟩, fun _ => 0⟩ : State E) :=
        ⟨h.range, fun _ => ⟨top, rfl, hb, fun _ => Or.inl ⟨rfl, rfl⟩⟩⟩
      obtain ⟨p1, p2, p3, p4, p5⟩ := prepared hE _ hco rfl top rfl sym
      refine ⟨p1, p2, p3, by simp, ?_⟩
      intro top' he
      cases he
      exact p5

theorem newModel_coherent (E : Env K) (comps : ∀ t, List (classOf K t).C) (index : Int → Option (CompType × Nat)) :
    Coherent (newModel E comps index) :=
  { range := fun t k h => by
      have h' : k ∈ ([] : List Nat) := h
      cases h'
    cache := fun h => by
      have h' : false = true := h
      cases h' }

theorem step_coherent (hE : E.Sound) (s s' : State E × (CompType → List Nat)) (op : Op K) (h : Coherent s.1)
    (hs : step E s op = some s') : Coherent s'.1 := by
  cases op with
  | update d =>
    simp only [step] at hs
    split at hs
    · cases hs
    · rename_i hne
      cases hs
      exact coherent_evolves hE s.1 _ h (permanentUpdate_evolves d s.1.model hne)
  | setup p k =>
    simp only [step] at hs
    split at hs
    · cases hs
    · rename_i hne
      cases hs
      exact coherent_evolves hE s.1 _ h (setup_evolves p k ⟨s.1.model, s.2⟩ hne)
  | winddown p =>
    simp only [step] at hs
    split at hs
    · cases hs
    · rename_i hne
      cases hs
      exact coherent_evolves hE s.1 _ h (winddown_evolves p ⟨s.1.model, s.2⟩ hne)
  | component cached t us seq =>
    simp only [step] at hs
    split at hs
    · cases hs
    · rename_i hne
      cases hs
      exact coherent_evolves hE s.1 _ h (updateType_evolves cached t us seq s.1.model hne)
  | calculate sym =>
    simp only [step, Option.some.injEq] at hs
    subst hs
    exact (prepareSolvers_spec hE s.1 h sym).1

theorem run_coherent (hE : E.Sound) (ops : List (Op K)) :
    ∀ s s', Coherent s.1 → run E s ops = some s' → Coherent s'.1 := by
  induction ops with
  | nil => intro s s' h hr; cases hr; exact h
  | cons op ops ih =>
    intro s s' h hr
    simp only [run] at hr
    cases hst : step E s op with
    | none => rw [hst] at hr; cases hr
    | some s1 =>
      rw [hst] at hr
      exact ih s1 s' (step_coherent hE s s1 op h hst) hr

/-! ## C11 -/

/-- C11. Whatever has happened to a model since its construction (calculations of both symmetries, permanent updates, batch
scenarios and their restoration, updates of the tap optimisation, rejected updates), a calculation gives the result that it
gives on a new model with the components as they are now. -/
theorem calculation_history_irrelevant {ο : Type} (hE : E.Sound) (comps : ∀ t, List (classOf K t).C)
    (index : Int → Option (CompType × Nat)) (ops : List (Op K)) (s : State E × (CompType → List Nat))
    (h : run E (newModel E comps index, fun _ => []) ops = some s) (sym : Bool)
    (solve : Bool → E.Top × Nat × Nat × (Slot → Option E.P) × (∀ t, List (classOf K t).C) → ο) :
    (calculate solve sym s.1).2 = (calculate solve sym (newModel E s.1.model.comps s.1.model.index)).2 := by
  have h1 := prepareSolvers_spec hE s.1 (run_coherent hE ops _ s (newModel_coherent E comps index) h) sym
  have h2 := prepareSolvers_spec hE _ (newModel_coherent E s.1.model.comps s.1.model.index) sym
  unfold calculate
  obtain ⟨_, _, _, a1, a2⟩ := h1
  obtain ⟨_, _, _, b1, b2⟩ := h2
  have hc : (newModel E s.1.model.comps s.1.model.index).model.comps = s.1.model.comps := rfl
  rw [hc] at b1 b2
  generalize prepareSolvers s.1 sym = x at a1 a2
  generalize prepareSolvers (newModel E s.1.model.comps s.1.model.index) sym = y at b1 b2
  obtain ⟨xs, xo⟩ := x
  obtain ⟨ys, yo⟩ := y
  simp only at a1 a2 b1 b2
  rw [← b1] at a1
  subst a1
  cases xo with
  | none => rfl
  | some top =>
    simp only [a2 top rfl, b2 top rfl]

theorem zip_find {P : Type} (l : List Slot) (ps : List P) (hn : l.Nodup) (i : Nat) (s : Slot) (p : P) (hs : l[i]? = some s)
    (hp : ps[i]? = some p) : ((l.zip ps).reverse.find? (fun sp => sp.1 = s)).map (·.2) = some p := by
  induction l generalizing ps i with
  | nil => simp at hs
  | cons a l ih =>
    cases ps with
    | nil => simp at hp
    | cons b ps =>
      rw [List.nodup_cons] at hn
      rw [List.zip_cons_cons, List.reverse_cons, List.find?_append]
      cases i with
      | zero =>
        simp only [List.getElem?_cons_zero, Option.some.injEq] at hs hp
        subst hs; subst hp
        have : (l.zip ps).reverse.find? (fun sp => decide (sp.1 = a)) = none := by
          rw [List.find?_eq_none]
          rintro ⟨s', p'⟩ hm
          simp only [decide_eq_true_eq]
          rintro rfl
          exact hn.1 (List.of_mem_zip (List.mem_reverse.mp hm)).1
        rw [this]
        simp
      | succ i =>
        have := ih ps hn.2 i (by simpa using hs) (by simpa using hp)
        cases hf : (l.zip ps).reverse.find? (fun sp => decide (sp.1 = s)) with
        | none => rw [hf] at this; cases this
        | some q => rw [hf] at this; simpa using this

/-- C11, in terms of the attributes: whatever has happened to a model, the calculation finds at each place of a component the
parameter that belongs to the attributes that this component has now, and the topology belongs to the present statuses. -/
theorem calculation_uses_current_attributes (hE : E.Sound) (comps : ∀ t, List (classOf K t).C)
    (index : Int → Option (CompType × Nat)) (ops : List (Op K)) (s : State E × (CompType → List Nat))
    (h : run E (newModel E comps index, fun _ => []) ops = some s) (sym : Bool) (top : E.Top)
    (hp : (prepareSolvers s.1 sym).2 = some top) :
    E.build (fun t => (s.1.model.comps t).map (topoView K t)) = some top ∧
    ∀ (t : CompType) (k i : Nat) (c : (classOf K t).C) (slot : Slot), HasParameters t → (s.1.model.comps t)[k]? = some c →
      (E.slots top t k)[i]? = some slot →
      ((prepareSolvers s.1 sym).1.ybus sym).param slot = (E.param sym t (paramData K t c))[i]? := by
  obtain ⟨_, _, _, h4, h5⟩ := prepareSolvers_spec hE s.1 (run_coherent hE ops _ s (newModel_coherent E comps index) h) sym
  refine ⟨h4 ▸ hp, ?_⟩
  intro t k i c slot ht hc hs
  have hin := h5 top hp
  simp only [solverInput, Prod.mk.injEq] at hin
  rw [hin.2.2.2.1]
  have hk : k < (s.1.model.comps t).length := (List.getElem?_eq_some_iff.mp hc).1
  have htp : t ∈ paramTypes := by cases t <;> first | exact ht.elim | decide
  have hmem : slot ∈ E.slots top t k := List.mem_of_getElem? hs
  unfold getMathParam
  rw [fold_write_owner hE top sym _ _ slot (t, k) ((mem_all _ (t, k)).mpr ⟨htp, hk⟩) hmem hk]
  have hi : i < (E.slots top t k).length := (List.getElem?_eq_some_iff.mp hs).1
  have hi' : i < (E.param sym t (paramData K t c)).length := Nat.lt_of_lt_of_le hi (hE.enough top sym t _ k)
  rw [List.getElem?_eq_getElem hi']
  unfold assigned
  simp only [hc]
  exact zip_find _ _ (hE.nodup top t k) i slot _ hs (List.getElem?_eq_getElem hi')

/-- A calculation does not change the components, so that it can be repeated. -/
theorem calculation_keeps_components (hE : E.Sound) (comps : ∀ t, List (classOf K t).C)
    (index : Int → Option (CompType × Nat)) (ops : List (Op K)) (s : State E × (CompType → List Nat))
    (h : run E (newModel E comps index, fun _ => []) ops = some s) (sym : Bool) :
    (prepareSolvers s.1 sym).1.model.comps = s.1.model.comps :=
  (prepareSolvers_spec hE s.1 (run_coherent hE ops _ s (newModel_coherent E comps index) h) sym).2.1

/-! ## A concrete case -/

/-- A grid with one line and one shunt, and an environment with one math model in which a line is isolated when it is open
on a side; the parameters are the data themselves. -/
def exComps : ∀ t, List (classOf ℚ t).C
  | .line => ([⟨⟨2⟩, true, true⟩] : List Branch)
  | .shunt => ([⟨⟨3⟩, true, some 1, some 2, none, none⟩] : List (Shunt ℚ))
  | .node | .asymLine | .link | .genericBranch | .transformer | .threeWindingTransformer | .source | .symGen | .asymGen
  | .symLoad | .asymLoad | .symPowerSensor | .asymPowerSensor | .symVoltageSensor | .asymVoltageSensor | .symCurrentSensor
  | .asymCurrentSensor | .fault | .tapRegulator | .voltageRegulator => []

def exIndex (id : Int) : Option (CompType × Nat) :=
  if id = 2 then some (.line, 0) else if id = 3 then some (.shunt, 0) else none

def exEnv : Env ℚ where
  Top := Bool
  P := Option ℚ
  build := fun v => some (v .line == [[true, true]])
  n := fun _ => 1
  slots := fun connected t k =>
    if t = .line ∧ k = 0 ∧ connected then [⟨0, .branch, 0⟩] else if t = .shunt ∧ k = 0 then [⟨0, .shunt, 0⟩] else []
  param := fun _ t d => match t, d with
    | .shunt, (d : Shunt ℚ) => [d.b1]
    | _, _ => [some 7]

theorem exEnv_sound : exEnv.Sound := by
  constructor
  · intro top t k t' k' s h h'
    simp only [exEnv] at h h'
    split_ifs at h h' <;> simp_all
  · intro top t k
    simp only [exEnv]
    split_ifs <;> simp
  · intro top sym t d k
    have h1 : (exEnv.slots top t k).length ≤ 1 := by
      simp only [exEnv]; split_ifs <;> simp
    have h2 : (exEnv.param sym t d).length = 1 := by
      cases t <;> rfl
    omega

/-- A history with calculations of both symmetries, a parameter update in between and a topology update: the parameters of
the shunt are refreshed incrementally. -/
def exOps : List (Op ℚ) :=
  [.calculate true, .calculate false,
   .component false .shunt ([⟨3, -128, none, some 5, none, none⟩] : List (ShuntUpdate ℚ)) [0],
   .calculate false,
   .component true .line ([⟨2, 0, -128⟩] : List BranchUpdate) [0],
   .calculate true]

def exRun : Option (State exEnv × (CompType → List Nat)) := run exEnv (newModel exEnv exComps exIndex, fun _ => []) exOps

example : exRun.isSome = true := by rfl
example : (exRun.map (fun s => ((s.1.ybus true).param ⟨0, .shunt, 0⟩, (s.1.ybus true).param ⟨0, .branch, 0⟩, s.1.top))) =
    some (some (some 5), none, some false) := by rfl
/-- Before the line was opened, the asymmetric parameters were refreshed through the list of changed components. -/
example : ((run exEnv (newModel exEnv exComps exIndex, fun _ => []) (exOps.take 4)).map
    (fun s => ((s.1.ybus false).param ⟨0, .shunt, 0⟩, (s.1.ybus true).param ⟨0, .shunt, 0⟩, s.1.model.status.sym))) =
    some (some (some 5), some (some 2), false) := by rfl

end PGM.Cache
