import Verif.Serial.Model

/-!
# What every message that is accepted says (C68)

The messages are arbitrary: written by anyone, with the keys of the root in any order, unknown keys and repeated keys.
-/

namespace PGM.Serial

/-! ## Specification -/

/-- The number of objects that are the content of an object that begins with the token. -/
def contents : Token → Nat
  | .array n => n
  | .map n => 2 * n
  | _ => 0

/-- The tokens are `n` complete objects. -/
inductive Objects : Nat → List Token → Prop
  | nil : Objects 0 []
  | cons {n : Nat} {t : Token} {l : List Token} : Objects (n + contents t) l → Objects (n + 1) (t :: l)

/-- The tokens are the keys with their values. -/
inductive KeyValues : List (String × List Token) → List Token → Prop
  | nil : KeyValues [] []
  | cons {key : String} {value l : List Token} {es : List (String × List Token)} :
      Objects 1 value → KeyValues es l → KeyValues ((key, value) :: es) (.str key :: value ++ l)

/-- The value of the last entry with the key. -/
def lastOf (key : String) (es : List (String × List Token)) : Option (List Token) := (es.reverse.find? fun e => e.1 == key).map Prod.snd

/-! ## Lemmas -/

theorem Objects.append {a : Nat} {l : List Token} (h : Objects a l) : ∀ {b : Nat} {l' : List Token}, Objects b l' → Objects (a + b) (l ++ l') := by
  induction h with
  | nil => intro b l' h'; simpa using h'
  | @cons n t l _ ih =>
    intro b l' h'
    have e : n + 1 + b = (n + b) + 1 := by omega
    rw [e, List.cons_append]
    refine .cons ?_
    have := ih h'
    rwa [show n + contents t + b = n + b + contents t by omega] at this

/-- The parser takes `k` complete objects. -/
def Eats {α : Type} (p : Parse α) (k : Nat) : Prop := ∀ r a r', p r = .ok (a, r') → ∃ v, r = v ++ r' ∧ Objects k v

theorem one {t : Token} (h : contents t = 0) : Objects 1 [t] := .cons (n := 0) (by rw [h]; exact .nil)

theorem eats_string : Eats parseString 1 := by
  intro r a r' h
  unfold parseString at h
  split at h
  · cases h; exact ⟨[.str a], rfl, one rfl⟩
  · cases h

theorem eats_bool : Eats parseBool 1 := by
  intro r a r' h
  unfold parseBool at h
  split at h
  · cases h; exact ⟨[.bool a], rfl, one rfl⟩
  · cases h

theorem skip_objects : ∀ (r : List Token) (n : Nat) (x : Bool × List Token), skip n r = some x → ∃ v, r = v ++ x.2 ∧ Objects n v := by
  intro r
  induction r with
  | nil =>
    intro n x h
    cases n with
    | zero => cases h; exact ⟨[], rfl, .nil⟩
    | succ n => cases h
  | cons t r ih =>
    intro n x h
    cases n with
    | zero => cases h; exact ⟨[], rfl, .nil⟩
    | succ n =>
      rw [skip] at h
      obtain ⟨y, hy, rfl⟩ := Option.map_eq_some_iff.mp h
      obtain ⟨v, e, hv⟩ := ih _ _ hy
      refine ⟨t :: v, by rw [List.cons_append, ← e], .cons ?_⟩
      have : arity t = contents t := by cases t <;> rfl
      rwa [← this]

theorem eats_skip : Eats parseSkip 1 := by
  intro r a r' h
  unfold parseSkip at h
  split at h
  · rename_i x hx
    cases h
    exact skip_objects _ _ _ hx
  · cases h

theorem eats_times {α : Type} {p : Parse α} {k : Nat} (hp : Eats p k) : ∀ n, Eats (times p n) (n * k) := by
  intro n
  induction n with
  | zero =>
    intro r a r' h
    cases h
    exact ⟨[], rfl, by rw [Nat.zero_mul]; exact .nil⟩
  | succ n ih =>
    intro r a r' h
    rw [times] at h
    split at h
    · cases h
    · rename_i b r1 h1
      split at h
      · cases h
      · rename_i l r2 h2
        cases h
        obtain ⟨v, rfl, hv⟩ := hp _ _ _ h1
        obtain ⟨w, rfl, hw⟩ := ih _ _ _ h2
        refine ⟨v ++ w, by rw [List.append_assoc], ?_⟩
        rw [Nat.succ_mul, Nat.add_comm]
        exact hv.append hw

/-- A key followed by an object. -/
theorem two {s : String} {v : List Token} (h : Objects 1 v) : Objects 2 (.str s :: v) := .cons (n := 1) h

theorem parseArray_eq {r r' : List Token} {n : Nat} (h : parseArray r = .ok (n, r')) : r = .array n :: r' := by
  unfold parseArray at h
  split at h
  · cases h; rfl
  · cases h

theorem parseMap_eq {r r' : List Token} {n : Nat} (h : parseMap r = .ok (n, r')) : r = .map n :: r' := by
  unfold parseMap at h
  split at h
  · cases h; rfl
  · cases h

theorem parseString_eq {r r' : List Token} {s : String} (h : parseString r = .ok (s, r')) : r = .str s :: r' := by
  unfold parseString at h
  split at h
  · cases h; rfl
  · cases h

theorem array_object {n : Nat} {v : List Token} (h : Objects n v) : Objects 1 (.array n :: v) :=
  .cons (n := 0) (by rw [Nat.zero_add]; exact h)

theorem map_object {n : Nat} {v : List Token} (h : Objects (n * 2) v) : Objects 1 (.map n :: v) :=
  .cons (n := 0) (by rw [Nat.zero_add]; show Objects (2 * n) v; rwa [Nat.mul_comm])

theorem eats_attributes1 : Eats readAttributes1 2 := by
  intro r a r' h
  unfold readAttributes1 at h
  split at h
  · cases h
  · rename_i name r1 h1
    split at h
    · cases h
    · rename_i n r2 h2
      split at h
      · cases h
      · rename_i l r3 h3
        cases h
        obtain rfl := parseString_eq h1
        obtain rfl := parseArray_eq h2
        obtain ⟨v, rfl, hv⟩ := eats_times eats_string n _ _ _ h3
        exact ⟨.str name :: .array n :: v, rfl, two (array_object (by simpa using hv))⟩

theorem eats_attributes : Eats readAttributes 1 := by
  intro r a r' h
  unfold readAttributes at h
  split at h
  · cases h
  · rename_i n r1 h1
    obtain rfl := parseMap_eq h1
    obtain ⟨v, rfl, hv⟩ := eats_times eats_attributes1 n _ _ _ h
    exact ⟨.map n :: v, rfl, map_object hv⟩

theorem eats_component : Eats preCountComponent 2 := by
  intro r a r' h
  unfold preCountComponent at h
  split at h
  · cases h
  · rename_i name r1 h1
    split at h
    · cases h
    · split at h
      · cases h
      · rename_i b r2 h3
        cases h
        obtain rfl := parseString_eq h1
        obtain ⟨v, rfl, hv⟩ := eats_skip _ _ _ h3
        exact ⟨.str name :: v, rfl, two hv⟩

theorem eats_scenario : Eats preCountScenario 1 := by
  intro r a r' h
  unfold preCountScenario at h
  split at h
  · cases h
  · rename_i n r1 h1
    obtain rfl := parseMap_eq h1
    obtain ⟨v, rfl, hv⟩ := eats_times eats_component n _ _ _ h
    exact ⟨.map n :: v, rfl, map_object hv⟩

/-- The data begin with a list exactly if they are a batch, whose scenarios are the items; other data begin with a map and are one scenario. -/
def Shape (batch : Bool) (scenarios : Nat) (v : List Token) : Prop :=
  if batch then ∃ l, v = .array scenarios :: l else scenarios = 1 ∧ ∃ n l, v = .map n :: l

theorem times_length {α : Type} {p : Parse α} : ∀ {n : Nat} {r r' : List Token} {l : List α}, times p n r = .ok (l, r') → l.length = n := by
  intro n
  induction n with
  | zero => intro r r' l h; cases h; rfl
  | succ n ih =>
    intro r r' l h
    rw [times] at h
    split at h
    · cases h
    · split at h
      · cases h
      · rename_i h2
        cases h
        rw [List.length_cons, ih h2]

theorem data_eaten {R : Root} {r r' : List Token} {d : List (List ByteMeta)} {b : Bool} (h : preCountData R r = .ok ((d, b), r')) :
    (R.hasIsBatch = true → R.isBatch = b) ∧ ∃ v, r = v ++ r' ∧ Objects 1 v ∧ Shape b d.length v := by
  unfold preCountData at h
  split at h
  · cases h
  · rename_i n isMap r1 h1
    split at h
    · cases h
    · rename_i hc
      split at h
      · cases h
      · rename_i l r2 h2
        cases h
        refine ⟨fun hb => by cases hm : isMap <;> cases hi : R.isBatch <;> simp_all, ?_⟩
        cases isMap with
        | true =>
          rw [if_pos rfl] at h2
          obtain ⟨v, e, hv⟩ := eats_times eats_scenario 1 _ _ _ h2
          have hl := times_length h2
          refine ⟨v, e, by simpa using hv, hl, ?_⟩
          unfold parseMapArray at h1
          split at h1
          · cases h1
            cases hv with
            | cons _ => cases e; exact ⟨_, _, rfl⟩
          · cases h1
          · cases h1
        | false =>
          rw [if_neg (by decide)] at h2
          obtain ⟨v, rfl, hv⟩ := eats_times eats_scenario n _ _ _ h2
          have hl := times_length h2
          unfold parseMapArray at h1
          split at h1
          · cases h1
          · cases h1
            exact ⟨.array n :: v, rfl, array_object (by simpa using hv), by rw [hl]; exact ⟨v, rfl⟩⟩
          · cases h1

/-- What is known after the entries `es`. -/
structure Known (es : List (String × List Token)) (R : Root) : Prop where
  version : ∀ s, R.version = some s → lastOf "version" es = some [.str s]
  type : ∀ s, R.type = some s → lastOf "type" es = some [.str s]
  batch : R.hasIsBatch = true → lastOf "is_batch" es = some [.bool R.isBatch]
  data : ∀ d, R.data = some d → ∃ v, lastOf "data" es = some v ∧ Shape R.isBatch d.length v
  attributes : ∀ a, R.attributes = some a → ∃ n l, lastOf "attributes" es = some (.map n :: l)

theorem lastOf_snoc (key k : String) (v : List Token) (es : List (String × List Token)) :
    lastOf key (es ++ [(k, v)]) = if k = key then some v else lastOf key es := by
  unfold lastOf
  rw [List.reverse_append]
  simp only [List.reverse_cons, List.reverse_nil, List.nil_append, List.cons_append, List.find?_cons]
  by_cases h : k = key
  · simp [h]
  · have : (k == key) = false := by simpa using h
    rw [this, if_neg h]

theorem attributes_map {r r' : List Token} {a : List (String × List String)} (h : readAttributes r = .ok (a, r')) : ∃ n l, r = .map n :: l := by
  unfold readAttributes at h
  split at h
  · cases h
  · rename_i n r1 h1
    exact ⟨n, r1, parseMap_eq h1⟩

theorem rootValue_known {es : List (String × List Token)} {R R' : Root} {key : String} {r r' : List Token} (hk : Known es R)
    (h : rootValue key R r = .ok (R', r')) : ∃ v, r = v ++ r' ∧ Objects 1 v ∧ Known (es ++ [(key, v)]) R' := by
  unfold rootValue at h
  split_ifs at h with h1 h2 h3 h4 h5
  · subst h1
    split at h
    · cases h
    · rename_i s r1 e
      cases h
      obtain rfl := parseString_eq e
      refine ⟨[.str s], rfl, one rfl, ?_, ?_, ?_, ?_, ?_⟩ <;> simp only [lastOf_snoc, reduceIte, String.reduceEq]
      · rintro _ ⟨⟩; rfl
      · exact hk.type
      · exact hk.batch
      · exact hk.data
      · exact hk.attributes
  · subst h2
    split at h
    · cases h
    · rename_i s r1 e
      cases h
      obtain rfl := parseString_eq e
      refine ⟨[.str s], rfl, one rfl, ?_, ?_, ?_, ?_, ?_⟩ <;> simp only [lastOf_snoc, reduceIte, String.reduceEq]
      · exact hk.version
      · rintro _ ⟨⟩; rfl
      · exact hk.batch
      · exact hk.data
      · exact hk.attributes
  · subst h3
    split at h
    · cases h
    · rename_i b r1 e
      split_ifs at h with hc
      cases h
      have e' : r = .bool b :: r' := by
        unfold parseBool at e
        split at e
        · cases e; rfl
        · cases e
      subst e'
      refine ⟨[.bool b], rfl, one rfl, ?_, ?_, ?_, ?_, ?_⟩ <;> simp only [lastOf_snoc, reduceIte, String.reduceEq]
      · exact hk.version
      · exact hk.type
      · intro _; trivial
      · intro d hd
        obtain ⟨v, hv, hs⟩ := hk.data d hd
        refine ⟨v, hv, ?_⟩
        have : R.isBatch = b := by
          by_contra hne
          exact hc ⟨by rw [show R.data = some d from hd]; rfl, hne⟩
        rwa [this] at hs
      · exact hk.attributes
  · subst h4
    split at h
    · cases h
    · rename_i a r1 e
      cases h
      obtain ⟨v, rfl, hv⟩ := eats_attributes _ _ _ e
      refine ⟨v, rfl, hv, ?_, ?_, ?_, ?_, ?_⟩ <;> simp only [lastOf_snoc, reduceIte, String.reduceEq]
      · exact hk.version
      · exact hk.type
      · exact hk.batch
      · exact hk.data
      · rintro _ ⟨⟩
        obtain ⟨n, l, e'⟩ := attributes_map e
        cases hv with
        | cons _ => cases e'; exact ⟨_, _, rfl⟩
  · subst h5
    split at h
    · cases h
    · rename_i d b r1 e
      cases h
      obtain ⟨hb, v, rfl, hv, hs⟩ := data_eaten e
      refine ⟨v, rfl, hv, ?_, ?_, ?_, ?_, ?_⟩ <;> simp only [lastOf_snoc, reduceIte, String.reduceEq]
      · exact hk.version
      · exact hk.type
      · intro hh
        rw [hk.batch hh, hb hh]
      · rintro _ ⟨⟩
        exact ⟨v, rfl, hs⟩
      · exact hk.attributes
  · split at h
    · cases h
    · rename_i a r1 e
      cases h
      obtain ⟨v, rfl, hv⟩ := eats_skip _ _ _ e
      refine ⟨v, rfl, hv, ?_, ?_, ?_, ?_, ?_⟩ <;> simp only [lastOf_snoc]
      · rw [if_neg h1]; exact hk.version
      · rw [if_neg h2]; exact hk.type
      · rw [if_neg h3]; exact hk.batch
      · rw [if_neg h5]; exact hk.data
      · rw [if_neg h4]; exact hk.attributes

theorem rootLoop_known : ∀ (n : Nat) {es : List (String × List Token)} {R R' : Root} {r r' : List Token}, Known es R →
    rootLoop n R r = .ok (R', r') → ∃ es' v, es'.length = n ∧ r = v ++ r' ∧ KeyValues es' v ∧ Known (es ++ es') R' := by
  intro n
  induction n with
  | zero =>
    intro es R R' r r' hk h
    cases h
    exact ⟨[], [], rfl, rfl, .nil, by rwa [List.append_nil]⟩
  | succ n ih =>
    intro es R R' r r' hk h
    rw [rootLoop] at h
    split at h
    · cases h
    · rename_i key r1 h1
      split at h
      · cases h
      · rename_i R1 r2 h2
        obtain rfl := parseString_eq h1
        obtain ⟨v, rfl, hv, hk1⟩ := rootValue_known hk h2
        obtain ⟨es', w, hl, rfl, hw, hk2⟩ := ih hk1 h
        refine ⟨(key, v) :: es', .str key :: v ++ w, by rw [List.length_cons, hl], by simp, .cons hv hw, ?_⟩
        rwa [List.append_assoc] at hk2

/-! ## The property -/

/-- C68: every message that is accepted, whoever wrote it, begins with a map. The dataset is the one that its key `type` names. It is a batch exactly
if the key `is_batch` says so, and then `data` is a list with one item per scenario; otherwise `data` is a map and there is one scenario. This holds
for every order of the keys; of a repeated key the last value counts. -/
theorem accepted_says (M : List MetaDataset) (ts : List Token) (P : Parsed) (h : preParse M ts = .ok P) :
    P.dataset ∈ M ∧ ∃ (es : List (String × List Token)) (body rest : List Token), ts = .map es.length :: body ++ rest ∧ KeyValues es body ∧
      (∃ s, lastOf "version" es = some [.str s]) ∧
      lastOf "type" es = some [.str P.dataset.name] ∧
      lastOf "is_batch" es = some [.bool P.isBatch] ∧
      (∃ n l, lastOf "attributes" es = some (.map n :: l)) ∧
      ∃ v, lastOf "data" es = some v ∧
        if P.isBatch then ∃ l, v = .array P.batchSize :: l else P.batchSize = 1 ∧ ∃ n l, v = .map n :: l := by
  unfold preParse at h
  split at h
  · cases h
  · rename_i n r h1
    split at h
    · cases h
    · rename_i R r' h2
      obtain rfl := parseMap_eq h1
      obtain ⟨es, v, hl, rfl, he, hk⟩ := rootLoop_known n (es := []) ⟨by simp, by simp, by simp, by simp, by simp⟩ h2
      rw [List.nil_append] at hk
      split at h
      · rename_i ver type attributes d e1 e2 e3 e4 e5
        split at h
        · cases h
        · rename_i m hm
          split at h
          · cases h
          · split at h
            · cases h
            · cases h
              have hn : m.name = type := by simpa using List.find?_some hm
              refine ⟨List.mem_of_find?_eq_some hm, es, v, r', by rw [hl]; rfl, he, ⟨ver, hk.version _ e1⟩, ?_, hk.batch e3, hk.attributes _ e4, ?_⟩
              · rw [hn]; exact hk.type _ e2
              · exact hk.data _ e5
      · cases h

/-! ## A message with its keys in another order -/

/-- The data come before `is_batch`; one key is unknown, and `type` is repeated. -/
def shuffled (batch : Bool) : List Token :=
  [.map 7, .str "data", .array 2, .map 1, .str "node", .array 1, .array 1, .int 7, .map 0, .str "type", .str "nothing", .str "comment", .map 1, .str "a", .array 1,
    .nil, .str "is_batch", .bool batch, .str "attributes", .map 1, .str "node", .array 1, .str "id", .str "type", .str "update", .str "version", .str "1.0"]

/-- The known datasets. -/
def shuffledMeta : List MetaDataset := [⟨"input", []⟩, ⟨"update", [⟨"node", [⟨"id", .int32⟩, ⟨"u", .double⟩]⟩]⟩]

/-- What can be compared: whether it is a batch, the number of scenarios and the name of the dataset. -/
def told (r : Except Err Parsed) : Option (Bool × Nat × String) :=
  match r with
  | .ok P => some (P.isBatch, P.batchSize, P.dataset.name)
  | .error _ => none

/-- It is accepted, so the hypothesis of `accepted_says` is met. -/
example : told (preParse shuffledMeta (shuffled true)) = some (true, 2, "update") := by decide +kernel

/-- If `is_batch` contradicts the data that came before it, the message is refused. -/
example : told (preParse shuffledMeta (shuffled false)) = none := by decide +kernel

end PGM.Serial
