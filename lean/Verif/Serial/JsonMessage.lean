import Verif.Serial.JsonLemmas

/-! # Serialisation: the message as a tree -/

namespace PGM.Serial

def Trees.append : Trees → Trees → Trees
  | .nil, r => r
  | .cons x l, r => .cons x (l.append r)

def Pairs.append : Pairs → Pairs → Pairs
  | .nil, r => r
  | .cons k x l, r => .cons k x (l.append r)

theorem Trees.append_tokens (r : Trees) : ∀ l : Trees, (l.append r).tokens = l.tokens ++ r.tokens
  | .nil => by rw [Trees.append, Trees.tokens, List.nil_append]
  | .cons x l => by rw [Trees.append, Trees.tokens, Trees.tokens, Trees.append_tokens r l, List.append_assoc]

theorem Pairs.append_tokens (r : Pairs) : ∀ l : Pairs, (l.append r).tokens = l.tokens ++ r.tokens
  | .nil => by rw [Pairs.append, Pairs.tokens, List.nil_append]
  | .cons k x l => by rw [Pairs.append, Pairs.tokens, Pairs.tokens, Pairs.append_tokens r l, List.cons_append, List.append_assoc]

theorem Trees.append_length (r : Trees) : ∀ l : Trees, (l.append r).length = l.length + r.length
  | .nil => by simp [Trees.append, Trees.length]
  | .cons x l => by rw [Trees.append, Trees.length, Trees.length, Trees.append_length r l]; omega

theorem Pairs.append_length (r : Pairs) : ∀ l : Pairs, (l.append r).length = l.length + r.length
  | .nil => by simp [Pairs.append, Pairs.length]
  | .cons k x l => by rw [Pairs.append, Pairs.length, Pairs.length, Pairs.append_length r l]; omega

theorem Trees.append_good {d : Nat} {r : Trees} (hr : r.Good d) : ∀ l : Trees, l.Good d → (l.append r).Good d
  | .nil, _ => hr
  | .cons x l, h => by
    rw [Trees.Good] at h
    rw [Trees.append, Trees.Good]
    exact ⟨h.1, Trees.append_good hr l h.2⟩

theorem Pairs.append_good {d : Nat} {r : Pairs} (hr : r.Good d) : ∀ l : Pairs, l.Good d → (l.append r).Good d
  | .nil, _ => hr
  | .cons k x l, h => by
    rw [Pairs.Good] at h
    rw [Pairs.append, Pairs.Good]
    exact ⟨h.1, Pairs.append_good hr l h.2⟩

/-- The calls throw, or write `n` values. -/
def Vals (d n : Nat) (l : List (Option Token)) : Prop := none ∈ l ∨ ∃ t : Trees, t.Good d ∧ t.length = n ∧ t.tokens.map some = l

/-- The calls throw, or write `n` keys with values. -/
def Entries (d n : Nat) (l : List (Option Token)) : Prop := none ∈ l ∨ ∃ t : Pairs, t.Good d ∧ t.length = n ∧ t.tokens.map some = l

theorem Vals.nil (d : Nat) : Vals d 0 [] := Or.inr ⟨.nil, trivial, rfl, rfl⟩

theorem Entries.nil (d : Nat) : Entries d 0 [] := Or.inr ⟨.nil, trivial, rfl, rfl⟩

theorem Vals.append {d m n : Nat} {a b : List (Option Token)} (ha : Vals d m a) (hb : Vals d n b) : Vals d (m + n) (a ++ b) := by
  rcases ha with ha | ⟨t, h1, rfl, rfl⟩
  · exact Or.inl (List.mem_append_left _ ha)
  · rcases hb with hb | ⟨r, h2, rfl, rfl⟩
    · exact Or.inl (List.mem_append_right _ hb)
    · exact Or.inr ⟨t.append r, Trees.append_good h2 t h1, Trees.append_length r t, by rw [Trees.append_tokens, List.map_append]⟩

theorem Entries.append {d m n : Nat} {a b : List (Option Token)} (ha : Entries d m a) (hb : Entries d n b) : Entries d (m + n) (a ++ b) := by
  rcases ha with ha | ⟨t, h1, rfl, rfl⟩
  · exact Or.inl (List.mem_append_left _ ha)
  · rcases hb with hb | ⟨r, h2, rfl, rfl⟩
    · exact Or.inl (List.mem_append_right _ hb)
    · exact Or.inr ⟨t.append r, Pairs.append_good h2 t h1, Pairs.append_length r t, by rw [Pairs.append_tokens, List.map_append]⟩

theorem Vals.flatMap {α : Type} {d : Nat} {f : α → List (Option Token)} : ∀ {l : List α}, (∀ a ∈ l, Vals d 1 (f a)) → Vals d l.length (l.flatMap f)
  | [], _ => Vals.nil d
  | a :: l, h => by
    rw [List.flatMap_cons, List.length_cons, Nat.add_comm]
    exact (h a List.mem_cons_self).append (Vals.flatMap fun b hb => h b (List.mem_cons_of_mem _ hb))

theorem Entries.flatMap {α : Type} {d : Nat} {f : α → List (Option Token)} :
    ∀ {l : List α}, (∀ a ∈ l, Entries d 1 (f a)) → Entries d l.length (l.flatMap f)
  | [], _ => Entries.nil d
  | a :: l, h => by
    rw [List.flatMap_cons, List.length_cons, Nat.add_comm]
    exact (h a List.mem_cons_self).append (Entries.flatMap fun b hb => h b (List.mem_cons_of_mem _ hb))

theorem Vals.atom {t : Token} (h : Atomic t) (d : Nat) : Vals d 1 [some t] :=
  Or.inr ⟨.cons (.atom t) .nil, by rw [Trees.Good, Trees.Good]; exact ⟨by rw [Tree.Good]; exact h, trivial⟩, rfl,
    by simp [Trees.tokens, Tree.tokens]⟩

theorem Vals.array {d n : Nat} {l : List (Option Token)} (h : Vals d n l) : Vals (d + 1) 1 (packArray n :: l) := by
  unfold packArray
  split_ifs with hn
  · rcases h with h | ⟨t, h1, rfl, rfl⟩
    · exact Or.inl (List.mem_cons_of_mem _ h)
    · refine Or.inr ⟨.cons (.array t) .nil, ?_, rfl, ?_⟩
      · rw [Trees.Good, Trees.Good, Tree.Good]
        exact ⟨⟨hn, h1⟩, trivial⟩
      · rw [Trees.tokens, Trees.tokens, Tree.tokens, List.append_nil, List.map_cons]
  · exact Or.inl List.mem_cons_self

theorem Vals.map {d n : Nat} {l : List (Option Token)} (h : Entries d n l) : Vals (d + 1) 1 (packMap n :: l) := by
  unfold packMap
  split_ifs with hn
  · rcases h with h | ⟨t, h1, rfl, rfl⟩
    · exact Or.inl (List.mem_cons_of_mem _ h)
    · refine Or.inr ⟨.cons (.map t) .nil, ?_, rfl, ?_⟩
      · rw [Trees.Good, Trees.Good, Tree.Good]
        exact ⟨⟨hn, h1⟩, trivial⟩
      · rw [Trees.tokens, Trees.tokens, Tree.tokens, List.append_nil, List.map_cons]
  · exact Or.inl List.mem_cons_self

theorem Entries.one {d : Nat} {l : List (Option Token)} (k : String) (h : Vals d 1 l) : Entries d 1 (some (.str k) :: l) := by
  rcases h with h | ⟨t, h1, h2, rfl⟩
  · exact Or.inl (List.mem_cons_of_mem _ h)
  · match t, h1, h2 with
    | .cons x .nil, h1, _ =>
      rw [Trees.Good] at h1
      refine Or.inr ⟨.cons k x .nil, by rw [Pairs.Good, Pairs.Good]; exact ⟨h1.1, trivial⟩, rfl, ?_⟩
      rw [Pairs.tokens, Pairs.tokens, Trees.tokens, Trees.tokens, List.map_cons]

/-! ## The parts of the message -/

theorem atomic_str {s : String} (h : NotANumber s) : Atomic (.str s) := by
  refine ⟨nofun, nofun, fun s' hs => ?_⟩
  cases hs
  unfold stringToken
  rw [if_neg (not_or.mpr ⟨h.1, h.2.1⟩), if_neg h.2.2]

theorem packPhase_atomic (x : Option Real) : Atomic (packPhase x) := by
  cases x <;> exact ⟨(by intro n h; cases h), (by intro n h; cases h), (by intro n h; cases h)⟩

theorem packCell_vals (d : Nat) (x : Cell) : Vals (d + 1) 1 ((packCell x).map some) := by
  cases x with
  | real y => exact Vals.atom (packPhase_atomic y) _
  | int n => exact Vals.atom (t := .int n) ⟨nofun, nofun, nofun⟩ _
  | three a b c =>
    exact Vals.array (n := 3) (((Vals.atom (packPhase_atomic a) d).append (Vals.atom (packPhase_atomic b) d)).append (Vals.atom (packPhase_atomic c) d))

theorem packInList_vals (d : Nat) (c : Component) (i : Nat) (a : MetaAttribute) : Vals (d + 1) 1 ((packInList c i a).map some) := by
  unfold packInList
  split_ifs
  · exact Vals.atom (t := .nil) ⟨nofun, nofun, nofun⟩ _
  · exact packCell_vals d _

theorem packElement_vals (d : Nat) (D : Dataset) (compact : Bool) (c : Component) (i : Nat) : Vals (d + 2) 1 (packElement D compact c i) := by
  unfold packElement
  split_ifs
  · unfold elementInList
    rw [List.map_flatMap]
    exact Vals.array (Vals.flatMap fun a _ => packInList_vals d c i a)
  · unfold elementInDict
    rw [List.map_flatMap]
    exact Vals.map (Entries.flatMap fun a _ => Entries.one a.name (packCell_vals d _))

theorem packScenario_vals (d : Nat) (D : Dataset) (compact : Bool) (vs : List View) : Vals (d + 4) 1 (packScenario D compact vs) := by
  refine Vals.map (Entries.flatMap fun v _ => Entries.one v.source.component.name ?_)
  have := Vals.array (Vals.flatMap (l := List.range v.size) (f := fun k => packElement D compact v.source (v.idx + k))
    fun k _ => packElement_vals d D compact v.source (v.idx + k))
  rwa [List.length_range] at this

theorem serialize_vals {D : Dataset} {compact : Bool} (hW : WellFormed D) (hname : NotANumber D.dataset.name)
    (hattr : ∀ c ∈ D.components, ∀ a ∈ c.component.attributes, NotANumber a.name) : Entries 5 5 (serialize D compact).tail := by
  have h1 : Entries 5 1 (packAttributes D compact) := by
    refine Entries.one "attributes" (Vals.map (Entries.flatMap fun x hx => Entries.one x.1 ?_))
    have := Vals.array (Vals.flatMap (d := 3) (l := x.2) (f := fun a => [some (Token.str a.name)]) fun a ha => Vals.atom (atomic_str ?_) _)
    · rwa [← List.map_eq_flatMap] at this
    · have hx' : x ∈ attributesMap D := by
        split at hx
        · exact hx
        · cases hx
      obtain ⟨c, hc, -, rfl⟩ := (mem_attributesMap hW).mp hx'
      exact hattr c hc a (List.mem_filter.mp ha).1
  have h2 : Entries 5 1 (packData D compact) := by
    refine Entries.one "data" ?_
    have hl : (scenarioViews D).length = D.batchSize := by simp [scenarioViews]
    cases hb : D.isBatch with
    | true =>
      simp only [if_true]
      have := Vals.array (Vals.flatMap (l := scenarioViews D) fun vs _ => packScenario_vals 0 D compact vs)
      rwa [hl] at this
    | false =>
      simp only [Bool.false_eq_true, if_false, List.nil_append]
      have := Vals.flatMap (l := scenarioViews D) fun vs _ => packScenario_vals 1 D compact vs
      rwa [hl, hW.single hb] at this
  have h3 := ((Entries.one "version" (Vals.atom (t := .str "1.0") (atomic_str ⟨by decide, by decide, by decide⟩) 5)).append
    (Entries.one "type" (Vals.atom (atomic_str hname) 5))).append (Entries.one "is_batch" (Vals.atom (t := .bool D.isBatch) ⟨nofun, nofun, nofun⟩ 5))
  exact (h3.append h1).append h2

/-- The text of the message is read back as the message. -/
theorem serialized_json {plain : ℚ → Bool} {D : Dataset} {compact : Bool} {ts : List Token} (hW : WellFormed D)
    (hname : NotANumber D.dataset.name) (hattr : ∀ c ∈ D.components, ∀ a ∈ c.component.attributes, NotANumber a.name)
    (hs : serialize D compact = ts.map some) (indent : Int) :
    fromJson plain (toJson indent D.isBatch ts) = .ok (ts.map (viaJson plain)) := by
  rcases serialize_vals (compact := compact) hW hname hattr with h | ⟨l, h1, h2, h3⟩
  · have := List.mem_of_mem_tail h
    rw [hs] at this
    simp at this
  · have h4 : serialize D compact = ((Tree.map l).tokens).map some := by
      rw [Tree.tokens, List.map_cons, h3, h2]
      rfl
    have h5 : ts = (Tree.map l).tokens := (List.map_injective_iff.mpr fun _ _ h => Option.some.inj h) (hs.symm.trans h4)
    rw [h5]
    refine fromJson_toJson (d := 6) ?_ (by decide) indent D.isBatch
    rw [Tree.Good]
    exact ⟨by rw [h2]; decide, h1⟩

end PGM.Serial
