import Verif.ResultSet.Lemmas
import Verif.Dataset.Props

/-!
# Datasets for the results of a calculation: theorems (C67)
-/

namespace PGM.ResultSet

open PGM.Datasets PGM.Update

variable {H : Heap} {ref : Dataset} {calculation : Calculation} {sym : Bool} {F : Filter}

open Classical in
/-- The dataset for the results of a calculation has exactly the components of the input that have results and that the user asks for, in the order of the input, each with a place for every element of every scenario,
in memory of its own that nothing else uses. It is refused exactly if one of these components has a number of elements that depends on the scenario. -/
theorem result_exactly (hR : Made ref) (hP : Proper H ref calculation sym F) (isBatch : Bool) (n : Nat) (hb : isBatch = false → n = 1) :
    ((∀ c ∈ ref.components, Wanted H calculation F c.name → 0 ≤ c.perScenario) →
      ∃ R, resultSet H ref calculation sym isBatch n F = .ok R ∧ R.set.info = H.info (resultType calculation sym) ∧ R.set.isBatch = isBatch ∧ R.set.batchSize = n ∧
        List.Forall₂ (Room R n F) (ref.components.filter fun c => decide (Wanted H calculation F c.name)) R.set.components ∧
        (R.storage.map (·.block)).Nodup ∧ (∀ m ∈ R.storage, H.free ≤ m.block) ∧ Made R.set) ∧
    ((∃ c ∈ ref.components, Wanted H calculation F c.name ∧ c.perScenario < 0) → resultSet H ref calculation sym isBatch n F = .error .variableSize) := by
  have hcr : create (H.info (outputType calculation sym)) isBatch n = .ok ⟨H.info (outputType calculation sym), isBatch, n, []⟩ := by
    unfold create
    rw [if_neg (by omega), if_neg]
    · simp
    · rintro ⟨h1, h2⟩
      exact h2 (by rw [hb h1]; rfl)
  have hnd : (ref.components.map (·.name)).Nodup := by
    have := (made_good hR).distinct
    rw [List.Nodup, List.pairwise_map]
    exact this
  have hi : Inv H ⟨⟨H.info (outputType calculation sym), isBatch, n, []⟩, []⟩ := ⟨rfl, .create hcr⟩
  constructor
  · intro hfix
    obtain ⟨R, new, h1, h2, h3, -, h5⟩ := addResults_ok hP ref.components ⟨⟨H.info (outputType calculation sym), isBatch, n, []⟩, []⟩ (fun _ h => h) hnd hfix hi rfl (by simp)
    refine ⟨R, ?_, by rw [h3, ← outputType_eq], by rw [h3], by rw [h3], ?_, ?_, ?_, h2.made⟩
    · unfold resultSet
      rw [hcr]
      exact h1
    · rw [h3]
      simpa using h5
    · rw [h2.blocks]
      exact List.nodup_range'
    · intro m hm
      have : m.block ∈ R.storage.map (·.block) := List.mem_map.mpr ⟨m, hm, rfl⟩
      rw [h2.blocks, List.mem_range'_1] at this
      exact this.1
  · intro hex
    unfold resultSet
    rw [hcr]
    exact addResults_variable hP ref.components ⟨⟨H.info (outputType calculation sym), isBatch, n, []⟩, []⟩ (fun _ h => h) hnd hex hi rfl (by simp)

/-- A negative number of scenarios, and a single calculation with another number of scenarios than one, are refused. -/
theorem size_refused (isBatch : Bool) (n : Int) (h : n < 0 ∨ (isBatch = false ∧ n ≠ 1)) : resultSet H ref calculation sym isBatch n F = .error (.api .dataset) := by
  have : create (H.info (outputType calculation sym)) isBatch n = .error .dataset := by
    unfold create
    split_ifs with h1 h2
    · rfl
    · rfl
    · rcases h with h | h
      · exact absurd h h1
      · exact absurd h h2
  unfold resultSet
  rw [this]

/-- Where the results are: element `k` of scenario `s` of a component has a place inside of the memory that was made for this component, in one piece or in one piece for each attribute that the user asks for. -/
theorem result_places (hR : Made ref) (hP : Proper H ref calculation sym F) (isBatch : Bool) (n : Nat) (hb : isBatch = false → n = 1) {R : Owning}
    (hres : resultSet H ref calculation sym isBatch n F = .ok R) {c : Component} (hc : c ∈ ref.components) (hw : Wanted H calculation F c.name) (s : Nat) (hs : s < n) :
    ∃ l, getSpan R.set c.name s = .ok l ∧ (l.length : Int) = c.perScenario ∧ ∀ (k : Nat) (x : Place), l[k]? = some x →
      0 ≤ c.perScenario * s + k ∧ c.perScenario * s + k < c.perScenario * n ∧
      ((∀ attrs, (c.name, attrs) ∈ F → attrs = []) → ∃ b, x = .row ⟨b, c.perScenario * s + k⟩ ∧ ⟨b, c.name, none, c.perScenario * n⟩ ∈ R.storage) ∧
      ∀ attrs, (c.name, attrs) ∈ F → attrs ≠ [] → ∃ cols, x = .column cols ∧ cols.map (·.1) = attrs ∧
        ∀ y ∈ cols, ∃ b, y.2 = some ⟨b, c.perScenario * s + k⟩ ∧ ⟨b, c.name, some y.1, c.perScenario * n⟩ ∈ R.storage := by
  classical
  obtain ⟨hyes, hno⟩ := result_exactly hR hP isBatch n hb
  have hfix : ∀ c ∈ ref.components, Wanted H calculation F c.name → 0 ≤ c.perScenario := by
    intro c hc hw
    by_contra hneg
    rw [hno ⟨c, hc, hw, by omega⟩] at hres
    cases hres
  obtain ⟨R', h1, -, h3, h4, h5, -, -, h8⟩ := hyes hfix
  rw [hres] at h1
  cases h1
  have he := hfix c hc hw
  have hmem : c ∈ ref.components.filter fun c => decide (Wanted H calculation F c.name) := List.mem_filter.mpr ⟨hc, by simpa using hw⟩
  obtain ⟨i, hi, hic⟩ := List.mem_iff_getElem.mp hmem
  have hi' : i < R.set.components.length := by rw [← h5.length_eq]; exact hi
  have hroom := h5.get hi hi'
  simp only [List.get_eq_getElem, hic] at hroom
  obtain ⟨c', hc'⟩ : ∃ c', c' = R.set.components[i] := ⟨_, rfl⟩
  rw [← hc'] at hroom
  have hfind : find R.set c.name = some i := by
    unfold find
    rw [List.findIdx?_eq_some_iff_getElem]
    refine ⟨hi', by rw [← hc', hroom.name]; simp, ?_⟩
    intro j hj
    have := List.pairwise_iff_getElem.mp (made_good h8).distinct j i (by omega) hi' hj
    rw [← hc', hroom.name] at this
    simpa using this
  have hspan : getSpan R.set c.name s = .ok ((List.range c.perScenario.toNat).map fun k : Nat => place c' (c.perScenario * s + k)) := by
    unfold getSpan
    rw [if_neg, if_neg (by rw [h4]; omega), hfind]
    · have : R.set.components[i]? = some c' := by rw [List.getElem?_eq_getElem hi', hc']
      simp only [this]
      unfold spanOf
      rw [if_neg (by omega), hroom.perScenario, if_neg (by omega)]
      unfold range
      have hd : c.perScenario * ((s : Int) + 1) - c.perScenario * s = c.perScenario := by ring
      rw [if_neg (by nlinarith), hd]
    · rintro ⟨h, h'⟩
      rw [h3] at h
      have := hb h
      omega
  refine ⟨_, hspan, by simp [he], ?_⟩
  intro k x hk
  rw [List.getElem?_map] at hk
  rcases Nat.lt_or_ge k c.perScenario.toNat with hlt | hge
  swap
  · rw [List.getElem?_eq_none (by simpa using hge)] at hk
    cases hk
  rw [List.getElem?_range hlt] at hk
  simp only [Option.map_some, Option.some.injEq] at hk
  have hke : (k : Int) < c.perScenario := by omega
  have hsz : c.perScenario * s + k < c.perScenario * n := by
    have : (s : Int) + 1 ≤ n := by omega
    nlinarith
  have h0 : 0 ≤ c.perScenario * (s : Int) := by positivity
  have hne0 : c.perScenario * (n : Int) ≠ 0 := by omega
  refine ⟨by omega, hsz, ?_, ?_⟩
  · intro hrows
    obtain ⟨-, hown⟩ := hroom.rows hrows
    rcases hown with ⟨b, hb1, hb2⟩ | ⟨hz, -⟩
    · refine ⟨b, ?_, hb2⟩
      rw [← hk]
      unfold place
      rw [hb1]
      simp [Ptr.advance]
    · exact absurd hz hne0
  · intro attrs ha hne
    obtain ⟨hd, hnames, hown⟩ := hroom.columns attrs ha hne
    refine ⟨c'.attributes.map fun a => (a.name, a.data.map fun p => p.advance (c.perScenario * s + k)), ?_, by rw [← hnames]; simp, ?_⟩
    · rw [← hk]
      unfold place
      rw [hd]
    · intro y hy
      obtain ⟨a, ha1, rfl⟩ := List.mem_map.mp hy
      rcases hown a ha1 with ⟨b, hb1, hb2⟩ | ⟨hz, -⟩
      · refine ⟨b, ?_, hb2⟩
        rw [hb1]
        simp [Ptr.advance]
      · exact absurd hz hne0

/-! ## An example -/

namespace Example

/-- Names: the number of the constructor. -/
def names (t : CompType) : Nat := t.ctorIdx

theorem names_injective : Function.Injective names := by
  intro a b h
  cases a <;> cases b <;> first | rfl | (simp [names, CompType.ctorIdx] at h)

/-- Everything exists. -/
def heap : Heap := ⟨fun _ => ⟨fun _ => true, fun _ _ => true⟩, names, 10, true, false⟩

/-- Input: 4 nodes, 3 lines, a sensor and a fault. -/
def input : Dataset := ⟨⟨fun _ => true, fun _ _ => true⟩, false, 1,
  [⟨names .node, 4, 4, some ⟨0, 0⟩, [], none⟩, ⟨names .line, 3, 3, some ⟨1, 0⟩, [], none⟩, ⟨names .symPowerSensor, 1, 1, some ⟨2, 0⟩, [], none⟩, ⟨names .fault, 1, 1, some ⟨3, 0⟩, [], none⟩]⟩

theorem input_made : Made input := by
  have h0 : Made ⟨⟨fun _ => true, fun _ _ => true⟩, false, 1, []⟩ := .create (M := ⟨fun _ => true, fun _ _ => true⟩) (b := false) (n := 1) rfl
  have h1 := Made.addBuffer (name := names .node) (e := 4) (t := 4) (p := none) (data := some ⟨0, 0⟩) h0 rfl
  have h2 := Made.addBuffer (name := names .line) (e := 3) (t := 3) (p := none) (data := some ⟨1, 0⟩) h1 rfl
  have h3 := Made.addBuffer (name := names .symPowerSensor) (e := 1) (t := 1) (p := none) (data := some ⟨2, 0⟩) h2 rfl
  exact Made.addBuffer (name := names .fault) (e := 1) (t := 1) (p := none) (data := some ⟨3, 0⟩) h3 rfl

/-- Of the nodes two attributes, of the lines all. -/
def filter : Filter := [(names .node, [5, 2]), (names .line, [])]

theorem proper : Proper heap input .powerFlow true filter := by
  refine ⟨names_injective, ?_, fun _ _ => rfl, by decide, by decide, fun _ _ _ _ => rfl⟩
  intro c hc
  simp only [input, List.mem_cons, List.not_mem_nil, or_false] at hc
  rcases hc with rfl | rfl | rfl | rfl
  exacts [⟨_, rfl⟩, ⟨_, rfl⟩, ⟨_, rfl⟩, ⟨_, rfl⟩]

/-- A batch of 2 scenarios: the nodes in two columns of 8, the lines in one buffer of 6. -/
example : resultSet heap input .powerFlow true true 2 filter = .ok ⟨⟨⟨fun _ => true, fun _ _ => true⟩, true, 2,
    [⟨names .node, 4, 8, none, [⟨5, some ⟨10, 0⟩⟩, ⟨2, some ⟨11, 0⟩⟩], none⟩, ⟨names .line, 3, 6, some ⟨12, 0⟩, [], none⟩]⟩,
    [⟨10, names .node, some 5, 8⟩, ⟨11, names .node, some 2, 8⟩, ⟨12, names .line, none, 6⟩]⟩ := rfl

/-- The hypotheses of the theorems are met. -/
example : ∃ R l, resultSet heap input .powerFlow true true 2 filter = .ok R ∧ getSpan R.set (names .line) 1 = .ok l ∧ (l.length : Int) = 3 := by
  have hw : Wanted heap .powerFlow filter (names .line) := ⟨.inr ⟨[], by simp [filter]⟩, .line, rfl, trivial⟩
  obtain ⟨l, h1, h2, -⟩ := result_places (c := ⟨names .line, 3, 3, some ⟨1, 0⟩, [], none⟩) input_made proper true 2 (by simp) rfl (by simp [input]) hw 1 (by omega)
  exact ⟨_, l, rfl, h1, h2⟩

/-- An update dataset, with as many lines as each scenario changes, cannot be the reference. -/
def updates : Dataset := ⟨⟨fun _ => true, fun _ _ => true⟩, true, 2, [⟨names .line, -1, 3, some ⟨0, 0⟩, [], some [0, 1, 3]⟩]⟩

example : resultSet heap updates .powerFlow true true 2 [] = .error .variableSize := rfl

end Example

end PGM.ResultSet
