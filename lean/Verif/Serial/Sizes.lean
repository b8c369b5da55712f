import Verif.Serial.Tokens
import Mathlib.Tactic.Ring
import Mathlib.Data.List.Nodup

/-! # Serialisation: the numbers of elements, and where the scenarios begin -/

namespace PGM.Serial

def off (c : Component) (s : Nat) : Nat := (begin_ c s).toNat

def cnt (c : Component) (s : Nat) : Nat := (begin_ c (s + 1) - begin_ c s).toNat

theorem begin_facts {batch : Nat} {c : Component} (h : Described batch c) :
    begin_ c 0 = 0 ∧ begin_ c batch = c.total ∧ (∀ s < batch, begin_ c s ≤ begin_ c (s + 1)) := by
  rcases h with ⟨h1, -, h3⟩ | ⟨h1, p, hp, -, h4, h5, h6⟩
  · have e : ∀ s : Nat, begin_ c s = c.perScenario * s := fun s => by rw [begin_, if_neg (by omega)]
    refine ⟨by rw [e]; simp, by rw [e, h3], fun s _ => ?_⟩
    rw [e, e]
    exact Int.mul_le_mul_of_nonneg_left (by push_cast; omega) h1
  · rw [if_pos h1] at hp
    have hp := Option.some.inj hp
    have e : ∀ s : Nat, begin_ c s = c.indptr.getD s 0 := fun s => by rw [begin_, if_pos h1]
    have e2 : ∀ (s : Nat) (x : Int), c.indptr[s]? = some x → begin_ c s = x := fun s x hx => by rw [e, List.getD, hx]; rfl
    rw [← hp] at h4 h5 h6
    refine ⟨e2 _ _ h4, e2 _ _ h5, fun s hs => ?_⟩
    obtain ⟨a, b, ha, hb, hab⟩ := h6 s hs
    rw [e2 _ _ ha, e2 _ _ hb]
    exact hab

theorem begin_nonneg {batch : Nat} {c : Component} (h : Described batch c) : ∀ s, s ≤ batch → 0 ≤ begin_ c s
  | 0, _ => by rw [(begin_facts h).1]
  | s + 1, hs => le_trans (begin_nonneg h s (by omega)) ((begin_facts h).2.2 s hs)

theorem off_eq {batch : Nat} {c : Component} (h : Described batch c) {s : Nat} (hs : s ≤ batch) : ((off c s : Nat) : Int) = begin_ c s :=
  Int.toNat_of_nonneg (begin_nonneg h s hs)

theorem off_zero {batch : Nat} {c : Component} (h : Described batch c) : off c 0 = 0 := by
  rw [off, (begin_facts h).1]
  rfl

theorem off_batch {batch : Nat} {c : Component} (h : Described batch c) : ((off c batch : Nat) : Int) = c.total := by
  rw [off_eq h le_rfl, (begin_facts h).2.1]

theorem off_succ {batch : Nat} {c : Component} (h : Described batch c) {s : Nat} (hs : s < batch) : off c (s + 1) = off c s + cnt c s := by
  have h1 := off_eq h (s := s) (by omega)
  have h2 := off_eq h (s := s + 1) hs
  have h3 := (begin_facts h).2.2 s hs
  have h4 : ((cnt c s : Nat) : Int) = begin_ c (s + 1) - begin_ c s := Int.toNat_of_nonneg (by omega)
  omega

theorem off_mono {batch : Nat} {c : Component} (h : Described batch c) : ∀ {t : Nat}, t ≤ batch → ∀ {s : Nat}, s ≤ t → off c s ≤ off c t
  | 0, _, s, hs => by rw [Nat.le_zero.mp hs]
  | t + 1, ht, s, hs => by
    rcases Nat.lt_or_ge s (t + 1) with h1 | h1
    · have := off_mono h (t := t) (by omega) (s := s) (by omega)
      have := off_succ h (s := t) ht
      omega
    · rw [show s = t + 1 by omega]

/-- The description names the same part of the buffer. -/
theorem part_iff {batch : Nat} {c : Component} (h : Described batch c) {s f n : Nat} (hs : s < batch) :
    Part c s f n ↔ f = off c s ∧ n = cnt c s := by
  have h1 := off_eq h (s := s) (by omega)
  have h2 := off_eq h (s := s + 1) hs
  have h3 := off_succ h hs
  constructor
  · rintro (⟨a, b, d⟩ | ⟨a, b, d⟩)
    · have e : ∀ s : Nat, begin_ c s = c.perScenario * s := fun s => by rw [begin_, if_neg (by omega)]
      rw [e] at h1 h2
      have h4 : c.perScenario * ((s + 1 : Nat) : Int) = c.perScenario * s + c.perScenario := by push_cast; ring
      omega
    · have e2 : ∀ (s : Nat) (x : Int), c.indptr[s]? = some x → begin_ c s = x := fun s x hx => by rw [begin_, if_pos a, List.getD, hx]; rfl
      rw [e2 _ _ b] at h1
      rw [e2 _ _ d] at h2
      omega
  · rintro ⟨rfl, rfl⟩
    rcases h with ⟨a, -, d⟩ | ⟨a, p, hp, b, -⟩
    · have e : ∀ s : Nat, begin_ c s = c.perScenario * s := fun s => by rw [begin_, if_neg (by omega)]
      rw [e] at h1 h2
      have h4 : c.perScenario * ((s + 1 : Nat) : Int) = c.perScenario * s + c.perScenario := by push_cast; ring
      exact Or.inl ⟨a, by omega, h1⟩
    · rw [if_pos a] at hp
      have hp := Option.some.inj hp
      rw [← hp] at b
      have e2 : ∀ s : Nat, s < c.indptr.length → c.indptr[s]? = some (begin_ c s) := fun s hs => by
        rw [begin_, if_pos a, List.getD, List.getElem?_eq_getElem hs]
        rfl
      refine Or.inr ⟨a, ?_, ?_⟩
      · rw [e2 _ (by omega), h1]
      · rw [e2 _ (by omega), ← h3, h2]

/-- The sizes of all scenarios, and their sum. -/
theorem counter_sum {batch : Nat} {c : Component} (h : Described batch c) : ∀ {n : Nat}, n ≤ batch →
    ((List.range n).map (cnt c)).sum = off c n
  | 0, _ => by rw [off_zero h]; rfl
  | n + 1, hn => by
    rw [List.range_succ, List.map_append, List.sum_append, counter_sum h (n := n) (by omega), off_succ h hn]
    simp

theorem scan_length : ∀ (l : List Nat) (acc : Nat), (scan acc l).length = l.length + 1
  | [], _ => rfl
  | n :: l, acc => by rw [scan, List.length_cons, scan_length l, List.length_cons]

theorem scan_get : ∀ (l : List Nat) (acc s : Nat), s ≤ l.length → (scan acc l)[s]? = some (((acc + (l.take s).sum : Nat) : Int))
  | [], acc, s, hs => by
    rw [Nat.le_zero.mp hs]
    simp [scan]
  | n :: l, acc, 0, _ => by simp [scan]
  | n :: l, acc, s + 1, hs => by
    rw [scan, List.getElem?_cons_succ, scan_get l (acc + n) s (by simpa using hs), List.take_succ_cons, List.sum_cons, Nat.add_assoc]

theorem scan_counter {batch : Nat} {c : Component} (h : Described batch c) {s : Nat} (hs : s ≤ batch) :
    (scan 0 ((List.range batch).map (cnt c)))[s]? = some ((off c s : Nat) : Int) := by
  rw [scan_get _ _ _ (by simpa using hs), ← List.map_take, List.take_range, Nat.min_eq_left hs, counter_sum h hs, Nat.zero_add]

/-- Equal neighbours are all equal. -/
theorem uniform_eq : ∀ {l : List Nat}, uniform l = true → ∀ {n : Nat} {l' : List Nat}, l = n :: l' → ∀ x ∈ l, x = n
  | [], _, _, _, h2, _, hx => by cases hx
  | [a], _, n, l', h2, x, hx => by
    cases h2
    exact List.mem_singleton.mp hx
  | a :: b :: l, h, n, l', h2, x, hx => by
    cases h2
    have h3 : a = b ∧ uniform (b :: l) = true := by
      unfold uniform at h
      rw [if_neg (by simp)] at h
      rw [List.dropLast_cons_of_ne_nil (by simp), List.tail_cons, List.zip_cons_cons, List.all_cons, Bool.and_eq_true] at h
      refine ⟨by simpa using h.1, ?_⟩
      unfold uniform
      split
      · rfl
      · exact h.2
    rcases List.mem_cons.mp hx with h4 | h4
    · exact h4
    · rw [uniform_eq h3.2 rfl x h4, h3.1]

/-- The numbers of elements that the deserialiser announces are those of the source. -/
theorem announced_described {batch : Nat} {c : Component} (h : Described batch c) {R : Component}
    (h1 : R.perScenario = perScenarioOf ((List.range batch).map (cnt c)))
    (h2 : R.total = if R.perScenario < 0 then ((((List.range batch).map (cnt c)).sum : Nat) : Int) else R.perScenario * batch)
    (h3 : R.perScenario < 0 → R.indptr = scan 0 ((List.range batch).map (cnt c))) :
    R.total = c.total ∧ Described batch R ∧ ∀ s ≤ batch, begin_ R s = begin_ c s := by
  have hu : 0 ≤ R.perScenario → ∀ s < batch, ((cnt c s : Nat) : Int) = R.perScenario := by
    intro h4 s hs
    unfold perScenarioOf at h1
    split at h1
    · rename_i hun
      cases hb : (List.range batch).map (cnt c) with
      | nil =>
        have := congrArg List.length hb
        rw [List.length_map, List.length_range, List.length_nil] at this
        omega
      | cons n l =>
        rw [hb] at h1
        have h5 := uniform_eq hun hb (cnt c s) (List.mem_map.mpr ⟨s, List.mem_range.mpr hs, rfl⟩)
        rw [h5]
        exact h1.symm
    · omega
  have hoff : 0 ≤ R.perScenario → ∀ s, s ≤ batch → ((off c s : Nat) : Int) = R.perScenario * s := by
    intro h4 s
    induction s with
    | zero => intro _; rw [off_zero h]; simp
    | succ s ih =>
      intro hs
      have h5 := ih (by omega)
      have h6 := hu h4 s hs
      rw [off_succ h hs]
      push_cast
      rw [h5, h6]
      ring
  have ht : R.total = c.total := by
    rw [h2, counter_sum h le_rfl]
    split
    · exact off_batch h
    · rw [← off_batch h, hoff (by omega) batch le_rfl]
  refine ⟨ht, ?_, ?_⟩
  · rcases Int.lt_or_le R.perScenario 0 with h4 | h4
    · refine Or.inr ⟨h4, scan 0 ((List.range batch).map (cnt c)), by rw [if_pos h4, h3 h4], ?_, ?_, ?_, fun s hs => ?_⟩
      · rw [scan_length]; simp
      · rw [scan_counter h (Nat.zero_le _), off_zero h]; rfl
      · rw [scan_counter h le_rfl, off_batch h, ht]
      · refine ⟨_, _, scan_counter h (by omega), scan_counter h hs, ?_⟩
        have := off_succ h hs
        omega
    · refine Or.inl ⟨h4, by rw [if_neg (by omega)], ?_⟩
      rw [ht, ← off_batch h, hoff h4 batch le_rfl]
  · intro s hs
    rw [← off_eq h hs]
    rcases Int.lt_or_le R.perScenario 0 with h4 | h4
    · rw [begin_, if_pos h4, h3 h4, List.getD, scan_counter h hs]; rfl
    · rw [begin_, if_neg (by omega), hoff h4 s hs]

/-! ## The views -/

theorem views_eq (D : Dataset) (s : Nat) :
    views D s (s + 1) = (D.components.map fun c => (⟨c, off c s, cnt c s⟩ : View)).filter fun v => 0 < v.size := rfl

theorem mem_views {D : Dataset} {a b : Nat} {v : View} :
    v ∈ views D a b ↔ v.source ∈ D.components ∧ v.idx = (begin_ v.source a).toNat ∧ v.size = (begin_ v.source b - begin_ v.source a).toNat ∧
      0 < v.size := by
  unfold views
  rw [List.mem_filter, List.mem_map]
  constructor
  · rintro ⟨⟨c, hc, rfl⟩, h⟩
    exact ⟨hc, rfl, rfl, by simpa using h⟩
  · rintro ⟨h1, h2, h3, h4⟩
    refine ⟨⟨v.source, h1, ?_⟩, by simpa using h4⟩
    cases v
    simp only at h2 h3
    rw [h2, h3]

/-- Only one component has the name. -/
theorem component_unique {D : Dataset} (hW : WellFormed D) {c d : Component} (hc : c ∈ D.components) (hd : d ∈ D.components)
    (h : c.component.name = d.component.name) : c = d :=
  List.inj_on_of_nodup_map hW.distinct hc hd h

theorem meta_unique {D : Dataset} (hW : WellFormed D) {m m' : MetaComponent} (hm : m ∈ D.dataset.components) (hm' : m' ∈ D.dataset.components)
    (h : m.name = m'.name) : m = m' :=
  List.inj_on_of_nodup_map hW.names hm hm' h

theorem attribute_unique {l : List MetaAttribute} (hl : (l.map MetaAttribute.name).Nodup) {a b : MetaAttribute} (ha : a ∈ l) (hb : b ∈ l)
    (h : a.name = b.name) : a = b :=
  List.inj_on_of_nodup_map hl ha hb h

/-- The places that the deserialiser remembers for the component in a scenario. -/
theorem bytesOf_spec {g : Token → Token} {D : Dataset} {compact : Bool} (hW : WellFormed D) {c : Component} (hc : c ∈ D.components) {s : Nat}
    {bs : List ByteMeta} (h : List.Forall₂ (Remembers g D compact) (views D s (s + 1)) bs) :
    (bytesOf c.component.name bs).size = cnt c s ∧ (0 < cnt c s → Remembers g D compact ⟨c, off c s, cnt c s⟩ (bytesOf c.component.name bs)) ∧
    (cnt c s = 0 → (bytesOf c.component.name bs).hasMap = false) := by
  have key : ∀ {vs : List View} {bs : List ByteMeta}, List.Forall₂ (Remembers g D compact) vs bs → (∀ v ∈ vs, v ∈ views D s (s + 1)) →
      (bs.find? (fun x => x.component == c.component.name) = none ∧ ∀ v ∈ vs, v.source.component.name ≠ c.component.name) ∨
      ∃ b, bs.find? (fun x => x.component == c.component.name) = some b ∧ 0 < cnt c s ∧ Remembers g D compact ⟨c, off c s, cnt c s⟩ b := by
    intro vs bs h
    induction h with
    | nil => intro _; exact Or.inl ⟨rfl, by intro v hv; cases hv⟩
    | @cons v b vs bs h1 _ ih =>
      intro hsub
      rcases Decidable.em (v.source.component.name = c.component.name) with hn | hn
      · refine Or.inr ⟨b, ?_, ?_⟩
        · rw [List.find?_cons_of_pos]
          simp [h1.1, hn]
        · obtain ⟨e1, e2, e3, e4⟩ := mem_views.mp (hsub v (by simp))
          have hvc : v.source = c := component_unique hW e1 hc hn
          rw [hvc] at e2 e3
          have hv : v = ⟨c, off c s, cnt c s⟩ := by
            cases v
            simp only at hvc e2 e3
            rw [hvc, e2, e3]
            rfl
          rw [hv] at h1 e4
          exact ⟨e4, h1⟩
      · rw [List.find?_cons_of_neg (by rw [h1.1]; simpa using hn)]
        rcases ih fun v hv => hsub v (List.mem_cons_of_mem _ hv) with ⟨h2, h3⟩ | h2
        · refine Or.inl ⟨h2, fun w hw => ?_⟩
          rcases List.mem_cons.mp hw with rfl | hw
          · exact hn
          · exact h3 w hw
        · exact Or.inr h2
  rcases key h (fun v hv => hv) with ⟨h1, h2⟩ | ⟨b, h1, h2, h3⟩
  · have h3 : cnt c s = 0 := by
      by_contra h3
      exact h2 ⟨c, off c s, cnt c s⟩ (mem_views.mpr ⟨hc, rfl, rfl, Nat.pos_of_ne_zero h3⟩) rfl
    unfold bytesOf
    rw [h1, h3]
    exact ⟨rfl, fun h => absurd h (Nat.lt_irrefl _), fun _ => rfl⟩
  · unfold bytesOf
    rw [h1]
    exact ⟨h3.2.1, fun _ => h3, fun h => by omega⟩

end PGM.Serial
