import Verif.Serial.History
import Verif.Serial.Props
import Mathlib.Data.List.TakeWhile

/-! # Serialisation: the reply does not depend on earlier requests (C38) -/

namespace PGM.Serial

/-- What a new serialiser should reply, by the message of the dataset: the message, or its text with the indentation asked for. -/
def Expected (D : Dataset) (f : Format) (r : Request) (x : Result) : Prop :=
  match f, r with
  | .msgpack, .binary c => ∃ ts : List Token, serialize D c = ts.map some ∧ x = .bytes ts
  | .msgpack, .string _ _ => x = .error
  | .json, .binary c => ∃ ts : List Token, serialize D c = ts.map some ∧ x = .text (toJson (-1) D.isBatch ts)
  | .json, .string c i => ∃ ts : List Token, serialize D c = ts.map some ∧ x = .text (toJson i D.isBatch ts)

/-- The indentation of a request. -/
def Request.indent : Request → Int
  | .binary _ => -1
  | .string _ i => i

/-- The option for lists of a request. -/
def Request.compact : Request → Bool
  | .binary c => c
  | .string c _ => c

/-- Serialisation throws for neither form (`serialize_succeeds`). -/
def Fits (D : Dataset) : Prop := ∀ c, ∃ ts : List Token, serialize D c = ts.map some

/-- The indentation of the text that is kept for the option `c`: of the latest request with an indentation other than −1, if all requests since then
have the same option. -/
def kept (c : Bool) : List Request → Int
  | [] => -1
  | r :: l => if r.compact = c then (if r.indent = -1 then kept c l else r.indent) else -1

theorem serialize_unique {D : Dataset} {c : Bool} {a b : List Token} (ha : serialize D c = a.map some) (hb : serialize D c = b.map some) : a = b :=
  (List.map_injective_iff.mpr fun _ _ h => Option.some.inj h) (ha.symm.trans hb)

theorem pack_fits {D : Dataset} {c : Bool} {ts : List Token} (h : serialize D c = ts.map some) (s : State) :
    s.pack D c = ({ s with msgpack := ts, compact := c }, true) := by
  unfold State.pack
  rw [h]
  have h1 : (ts.map some).takeWhile Option.isSome = ts.map some := by
    rw [List.takeWhile_eq_self_iff]
    simp
  have h2 : (ts.map some).all Option.isSome = true := by simp
  rw [h1, h2]
  simp

variable {D : Dataset}

theorem getMsgpack_fits {ts : List Token} {c : Bool} (ht : serialize D c = ts.map some) {s : State}
    (hs : s.msgpack = [] ∨ serialize D s.compact = s.msgpack.map some) :
    s.getMsgpack D c = ({ s with msgpack := ts, compact := c }, some ts) := by
  unfold State.getMsgpack
  rw [pack_fits ht]
  split_ifs with h1 h2
  · rfl
  · exact absurd rfl h2
  · rw [Bool.or_eq_true, not_or] at h1
    have h3 : s.compact = c := by simpa using h1.2
    rcases hs with h4 | h4
    · rw [h4] at h1
      simp at h1
    · rw [h3] at h4
      have := serialize_unique ht h4
      subst this
      subst h3
      rfl

/-! ## A text is not empty -/

theorem printIndent_out {c : Conv} (h : c.out ≠ []) : (printIndent c).out ≠ [] := by
  unfold printIndent
  split_ifs
  · exact h
  · cases c.stack with
    | nil => exact h
    | cons x st =>
      simp only
      split_ifs
      · exact h
      · simp [Conv.write]
  · simp [Conv.write]

theorem endItem_out {c : Conv} (h : c.out ≠ []) : (endItem c).out ≠ [] := by
  unfold endItem
  cases c.stack with
  | nil => exact h
  | cons x st =>
    simp only
    split_ifs
    · simp [Conv.write]
    · exact h

theorem endContainer_out {c : Conv} (h : c.out ≠ []) (p : Piece) : (endContainer c p).out ≠ [] := by
  unfold endContainer
  cases c.stack with
  | nil => exact h
  | cons x st => simp [Conv.write]

theorem finish_out : ∀ (fs : List Frame) (c : Conv), c.out ≠ [] → (finish fs c).2.out ≠ []
  | [], c, h => h
  | .array n :: fs, c, h => by
    unfold finish
    split_ifs
    · exact finish_out fs _ (endContainer_out (endItem_out h) _)
    · exact printIndent_out (endItem_out h)
  | .key n :: fs, c, h => by
    unfold finish
    simp only [endKey]
    split_ifs <;> simp [Conv.write]
  | .value n :: fs, c, h => by
    unfold finish
    split_ifs
    · exact finish_out fs _ (endContainer_out (endItem_out h) _)
    · exact printIndent_out (endItem_out h)

theorem visit_out (fs : List Frame) (c : Conv) (t : Token) : (visit fs c t).2.out ≠ [] := by
  cases t with
  | array n =>
    simp only [visit]
    split_ifs
    · exact finish_out fs _ (endContainer_out (by simp [startContainer, Conv.write]) _)
    · exact printIndent_out (by simp [startContainer, Conv.write])
  | map n =>
    simp only [visit]
    split_ifs
    · exact finish_out fs _ (endContainer_out (by simp [startContainer, Conv.write]) _)
    · exact printIndent_out (by simp [startContainer, Conv.write])
  | _ => exact finish_out fs _ (by simp [Conv.write])

theorem drive_out : ∀ (ts : List Token) (fs : List Frame) (c : Conv), c.out ≠ [] → (drive fs c ts).2.out ≠ []
  | [], _, _, h => h
  | t :: ts, fs, c, _ => drive_out ts _ _ (visit_out fs c t)

theorem serialize_head (D : Dataset) (c : Bool) : ∃ l, serialize D c = some (.map 5) :: l := ⟨_, rfl⟩

theorem toJson_ne {ts : List Token} {c : Bool} (ht : serialize D c = ts.map some) (i : Int) (b : Bool) : toJson i b ts ≠ [] := by
  cases ts with
  | nil =>
    obtain ⟨l, hl⟩ := serialize_head D c
    rw [hl] at ht
    cases ht
  | cons t ts => exact drive_out ts _ _ (visit_out _ _ t)

/-! ## JSON -/

theorem getJson_init {ts : List Token} {c : Bool} (ht : serialize D c = ts.map some) (i : Int) :
    State.init.getJson D c i = (⟨ts, c, -1, toJson i D.isBatch ts⟩, .text (toJson i D.isBatch ts)) := by
  unfold State.getJson
  rw [if_pos (by simp [State.init]), getMsgpack_fits ht (Or.inl rfl)]
  rfl

theorem getJson_fits {ts ts0 : List Token} {c c0 : Bool} (ht : serialize D c = ts.map some) (ht0 : serialize D c0 = ts0.map some) (i j : Int) :
    State.getJson ⟨ts0, c0, -1, toJson j D.isBatch ts0⟩ D c i =
      (⟨ts, c, -1, toJson (if c0 = c ∧ i = -1 then j else i) D.isBatch ts⟩, .text (toJson (if c0 = c ∧ i = -1 then j else i) D.isBatch ts)) := by
  unfold State.getJson
  have h0 : (toJson j D.isBatch ts0).isEmpty = false := by
    rw [List.isEmpty_eq_false_iff]
    exact toJson_ne ht0 _ _
  simp only [h0, Bool.false_or]
  by_cases h1 : c0 = c ∧ i = -1
  · obtain ⟨rfl, rfl⟩ := h1
    rw [if_neg (by simp), if_pos ⟨rfl, rfl⟩, serialize_unique ht ht0]
  · rw [if_neg h1, if_pos, getMsgpack_fits ht (Or.inr ht0)]
    rw [Bool.or_eq_true, bne_iff_ne, bne_iff_ne]
    by_contra h2
    rw [not_or, not_not, not_not] at h2
    exact h1 ⟨h2.1, h2.2.symm⟩

theorem request_json (s : State) (r : Request) : request D .json s r = s.getJson D r.compact r.indent := by
  cases r <;> rfl

/-- The text of a request after a history, exactly: an indentation other than −1 is always that of the request. -/
theorem json_reply (h : Fits D) : ∀ (history : List Request) (r : Request), ∃ ts : List Token, serialize D r.compact = ts.map some ∧
    request D .json (after D .json history) r =
      (⟨ts, r.compact, -1, toJson (kept r.compact (r :: history)) D.isBatch ts⟩, .text (toJson (kept r.compact (r :: history)) D.isBatch ts))
  | [], r => by
    obtain ⟨ts, ht⟩ := h r.compact
    refine ⟨ts, ht, ?_⟩
    rw [request_json, after, getJson_init ht]
    have : kept r.compact [r] = r.indent := by
      simp only [kept, if_true]
      split_ifs with h1
      · exact h1.symm
      · rfl
    rw [this]
  | r0 :: l, r => by
    obtain ⟨ts, ht⟩ := h r.compact
    refine ⟨ts, ht, ?_⟩
    obtain ⟨ts0, ht0, h0⟩ := json_reply h l r0
    rw [request_json, after, h0, getJson_fits ht ht0]
    have : kept r.compact (r :: r0 :: l) = if r0.compact = r.compact ∧ r.indent = -1 then kept r0.compact (r0 :: l) else r.indent := by
      rw [kept, if_pos rfl]
      split_ifs with h1 h2 h2
      · rw [h2.1]
      · rw [kept, if_neg (fun h3 => h2 ⟨h3, h1⟩), h1]
      · exact absurd h2.2 h1
      · rfl
    rw [this]

/-- C38, msgpack: the reply is the message for the option asked for, whatever was requested before. -/
theorem msgpack_history (h : Fits D) (history : List Request) (r : Request) : Expected D .msgpack r (reply D .msgpack history r) := by
  have key : ∀ l : List Request, (after D .msgpack l).msgpack = [] ∨
      serialize D (after D .msgpack l).compact = (after D .msgpack l).msgpack.map some := by
    intro l
    induction l with
    | nil => exact Or.inl rfl
    | cons r l ih =>
      cases r with
      | string c i => exact ih
      | binary c =>
        obtain ⟨ts, ht⟩ := h c
        simp only [after, request]
        rw [getMsgpack_fits ht ih]
        exact Or.inr ht
  cases r with
  | string c i => rfl
  | binary c =>
    obtain ⟨ts, ht⟩ := h c
    refine ⟨ts, ht, ?_⟩
    simp only [reply, request]
    rw [getMsgpack_fits ht (key history)]

theorem kept_minus {c : Bool} : ∀ {l : List Request}, (∀ r ∈ l, r.compact = c → r.indent = -1) → kept c l = -1
  | [], _ => rfl
  | r :: l, h => by
    rw [kept]
    split_ifs with h1 h2
    · exact kept_minus fun r hr => h r (List.mem_cons_of_mem _ hr)
    · exact absurd (h r List.mem_cons_self h1) h2
    · rfl

/-- C38, JSON: the reply is the text with the options asked for, whatever was requested before, if the indentation is not −1. With indentation −1 (which
is also that of the binary buffer) this holds if no earlier request with the same list option had another indentation, or if the latest request had
another list option. What is missing: indentation −1 after other indentations, where it is false, see `json_history_false`. -/
theorem json_history_partial (h : Fits D) (history : List Request) (r : Request)
    (hr : r.indent ≠ -1 ∨ (∀ r' ∈ history, r'.compact = r.compact → r'.indent = -1) ∨ ∃ r' l, history = r' :: l ∧ r'.compact ≠ r.compact) :
    Expected D .json r (reply D .json history r) := by
  obtain ⟨ts, ht, h1⟩ := json_reply h history r
  have h2 : kept r.compact (r :: history) = r.indent := by
    rw [kept, if_pos rfl]
    split_ifs with h3
    · rcases hr with hr | hr | ⟨r', l, rfl, hr⟩
      · exact absurd h3 hr
      · rw [kept_minus hr, h3]
      · rw [kept, if_neg hr, h3]
    · rfl
  rw [h2] at h1
  unfold reply
  rw [h1]
  cases r with
  | binary c => exact ⟨ts, ht, rfl⟩
  | string c i => exact ⟨ts, ht, rfl⟩

/-- Whatever was requested before, the text that is returned is a text of the dataset in the list form asked for: it is read back as the dataset. -/
theorem json_history_restores {plain : ℚ → Bool} (hp : ∀ q, plain q = true → q.den = 1) {M : List MetaDataset} (hM : (M.map MetaDataset.name).Nodup)
    (hD : D.dataset ∈ M) (hW : WellFormed D) (hname : NotANumber D.dataset.name)
    (hattr : ∀ c ∈ D.components, ∀ a ∈ c.component.attributes, NotANumber a.name) (h : Fits D) (history : List Request) (r : Request) :
    ∃ ps ts, reply D .json history r = .text ps ∧ fromJson plain ps = .ok ts ∧ Restores M D ts := by
  obtain ⟨ts, ht, h1⟩ := json_reply h history r
  obtain ⟨ts', h2, h3⟩ := round_trip_json hp hM hD hW hname hattr ht (kept r.compact (r :: history))
  exact ⟨_, ts', by unfold reply; rw [h1], h2, h3⟩

namespace Example

theorem data_fits : Fits data := by
  intro c
  refine serialize_succeeds c data_wellFormed (by decide) (by decide) ?_ ?_
  · intro c hc
    simp only [data, List.mem_cons, List.not_mem_nil, or_false] at hc
    rcases hc with rfl | rfl <;> decide
  · intro c hc
    simp only [data, List.mem_cons, List.not_mem_nil, or_false] at hc
    rcases hc with rfl | rfl <;> decide

/-- A history in which the options change; the reply is the expected one. -/
example : Expected data .json (.string true 2) (reply data .json [.binary true, .string false 4, .string true (-1)] (.string true 2)) :=
  json_history_partial data_fits _ _ (Or.inl (by decide))

set_option maxRecDepth 8000 in
/-- C38 is false with indentation −1: after a request with indentation 2 the same serialiser returns the indented text again. -/
theorem json_history_false :
    ¬ ∀ (D : Dataset), WellFormed D → Fits D → ∀ (history : List Request) (r : Request), Expected D .json r (reply D .json history r) := by
  intro h
  obtain ⟨ts, h1, h2⟩ := h data data_wellFormed data_fits [.string true 2] (.binary true)
  obtain ⟨ts', h3, h4⟩ := json_reply data_fits [.string true 2] (.binary true)
  have h5 := serialize_unique h1 data_message
  have h6 := serialize_unique h3 data_message
  subst h5 h6
  unfold reply at h2
  rw [h4] at h2
  have h7 : toJson 2 true message = toJson (-1) true message := Result.text.inj h2
  exact absurd h7 (by decide +kernel)

end Example

/-! ## After an exception -/

/-- If serialisation throws, the same request made again does not throw: it returns the part of the message that was packed before the exception. -/
theorem error_then_truncated {c : Bool} (h : none ∈ serialize D c) : reply D .msgpack [] (.binary c) = .error ∧
    ∃ ts : List Token, reply D .msgpack [.binary c] (.binary c) = .bytes ts ∧ (∃ l, serialize D c = ts.map some ++ none :: l) := by
  have h1 : (serialize D c).all Option.isSome = false := by
    rw [List.all_eq_false]
    exact ⟨none, h, by simp⟩
  obtain ⟨l, hl⟩ := serialize_head D c
  have h2 : State.init.getMsgpack D c = ((State.init.pack D c).1, none) := by
    unfold State.getMsgpack
    rw [if_pos (by simp [State.init])]
    have : (State.init.pack D c).2 = false := h1
    rw [this]
    rfl
  refine ⟨?_, ((serialize D c).takeWhile Option.isSome).filterMap id, ?_, ?_⟩
  · simp only [reply, request, after]
    rw [h2]
  · simp only [reply, request, after]
    rw [h2]
    simp only
    unfold State.getMsgpack
    have h3 : (State.init.pack D c).1.msgpack.isEmpty = false := by
      unfold State.pack
      simp only [hl]
      rfl
    have h4 : (State.init.pack D c).1.compact = c := rfl
    rw [h3, h4, if_neg (by simp)]
    rfl
  · generalize serialize D c = l at h
    clear h1 h2 hl
    induction l with
    | nil => cases h
    | cons x l ih =>
      cases x with
      | none => exact ⟨l, rfl⟩
      | some t =>
        obtain ⟨l', h3⟩ := ih (by simpa using h)
        refine ⟨l', ?_⟩
        rw [List.takeWhile_cons_of_pos rfl, List.filterMap_cons]
        simp only [id, List.map_cons, List.cons_append]
        exact congrArg _ h3

/-- Such datasets exist: a batch with 2³² scenarios. -/
example : none ∈ serialize ⟨⟨"update", []⟩, true, 2 ^ 32, []⟩ true := by
  unfold serialize packData
  simp [packArray]

end PGM.Serial
