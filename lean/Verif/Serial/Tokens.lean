import Verif.Serial.Spec
import Mathlib.Data.List.Forall2

/-! # Serialisation: the tokens that are written, and how complete objects are skipped -/

namespace PGM.Serial

/-! ## The tokens behind a transport -/

def tPhase (g : Token → Token) : Option Real → Token
  | none => .nil
  | some x => g (.float x)

def tCell (g : Token → Token) : Cell → List Token
  | .real x => [tPhase g x]
  | .three a b c => [.array 3, tPhase g a, tPhase g b, tPhase g c]
  | .int n => [.int n]

def tInList (g : Token → Token) (c : Component) (i : Nat) (a : MetaAttribute) : List Token :=
  if isNan a.ctype (c.cell i a.name) then [.nil] else tCell g (c.cell i a.name)

def tElement (g : Token → Token) (D : Dataset) (compact : Bool) (c : Component) (i : Nat) : List Token :=
  if compact then .array (attributesOf D c.component.name).length :: (attributesOf D c.component.name).flatMap (tInList g c i)
  else .map (valid c i).length :: (valid c i).flatMap fun a => .str a.name :: tCell g (c.cell i a.name)

def tElements (g : Token → Token) (D : Dataset) (compact : Bool) (v : View) : List Token :=
  (List.range v.size).flatMap fun k => tElement g D compact v.source (v.idx + k)

def tComponent (g : Token → Token) (D : Dataset) (compact : Bool) (v : View) : List Token :=
  .str v.source.component.name :: .array v.size :: tElements g D compact v

def tScenario (g : Token → Token) (D : Dataset) (compact : Bool) (vs : List View) : List Token :=
  .map vs.length :: vs.flatMap (tComponent g D compact)

def tData (g : Token → Token) (D : Dataset) (compact : Bool) : List Token :=
  (if D.isBatch then [.array D.batchSize] else []) ++ (scenarioViews D).flatMap (tScenario g D compact)

def sentAttributes (D : Dataset) (compact : Bool) : List (String × List MetaAttribute) := if compact then attributesMap D else []

def tAttributes1 (x : String × List MetaAttribute) : List Token := .str x.1 :: .array x.2.length :: x.2.map fun a => Token.str a.name

def tAttributes (D : Dataset) (compact : Bool) : List Token :=
  .map (sentAttributes D compact).length :: (sentAttributes D compact).flatMap tAttributes1

def tRoot (g : Token → Token) (D : Dataset) (compact : Bool) : List Token :=
  .map 5 :: .str "version" :: .str "1.0" :: .str "type" :: .str D.dataset.name :: .str "is_batch" :: .bool D.isBatch ::
    .str "attributes" :: (tAttributes D compact ++ .str "data" :: tData g D compact)

/-- The calls `l` throw, or write `p` behind the transport. -/
def Writes (g : Token → Token) (l : List (Option Token)) (p : List Token) : Prop :=
  none ∈ l ∨ l.map (Option.map g) = p.map some

variable {g : Token → Token}

theorem Transport.fixes (hg : Transport g) {t : Token} (h : ∀ x, t ≠ .float x) : g t = t := by
  rcases hg t with h1 | ⟨n, h1, _⟩
  · exact h1
  · exact absurd h1 (h _)

theorem Writes.nil : Writes g [] [] := Or.inr rfl

theorem Writes.append {l1 l2 : List (Option Token)} {p1 p2 : List Token} (h1 : Writes g l1 p1) (h2 : Writes g l2 p2) :
    Writes g (l1 ++ l2) (p1 ++ p2) := by
  rcases h1 with h1 | h1
  · exact Or.inl (List.mem_append_left _ h1)
  · rcases h2 with h2 | h2
    · exact Or.inl (List.mem_append_right _ h2)
    · exact Or.inr (by rw [List.map_append, List.map_append, h1, h2])

theorem Writes.cons {x : Option Token} {l : List (Option Token)} {t : Token} {p : List Token} (h1 : x = none ∨ x.map g = some t)
    (h2 : Writes g l p) : Writes g (x :: l) (t :: p) := by
  rcases h1 with h1 | h1
  · exact Or.inl (by simp [h1])
  · rcases h2 with h2 | h2
    · exact Or.inl (List.mem_cons_of_mem _ h2)
    · exact Or.inr (by rw [List.map_cons, List.map_cons, h1, h2])

theorem Writes.flatMap {α : Type} {f : α → List (Option Token)} {p : α → List Token} {l : List α} (h : ∀ a ∈ l, Writes g (f a) (p a)) :
    Writes g (l.flatMap f) (l.flatMap p) := by
  induction l with
  | nil => exact Writes.nil
  | cons a l ih =>
    rw [List.flatMap_cons, List.flatMap_cons]
    exact (h a (by simp)).append (ih fun b hb => h b (List.mem_cons_of_mem _ hb))

theorem Writes.some {l p : List Token} (h : l.map g = p) : Writes g (l.map some) p := by
  refine Or.inr ?_
  rw [← h, List.map_map, List.map_map]
  rfl

theorem packArray_writes (hg : Transport g) (n : Nat) : packArray n = none ∨ (packArray n).map g = some (.array n) := by
  unfold packArray
  split
  · exact Or.inr (by rw [Option.map_some, hg.fixes (by intro x h; cases h)])
  · exact Or.inl rfl

theorem packMap_writes (hg : Transport g) (n : Nat) : packMap n = none ∨ (packMap n).map g = some (.map n) := by
  unfold packMap
  split
  · exact Or.inr (by rw [Option.map_some, hg.fixes (by intro x h; cases h)])
  · exact Or.inl rfl

theorem packCell_map (hg : Transport g) (x : Cell) : (packCell x).map g = tCell g x := by
  have h1 : ∀ y, g (packPhase y) = tPhase g y := by
    intro y
    cases y with
    | none => exact hg.fixes (by intro x h; cases h)
    | some y => rfl
  cases x with
  | real y => simp only [packCell, tCell, List.map_cons, List.map_nil, h1]
  | three a b c =>
    simp only [packCell, tCell, List.map_cons, List.map_nil, h1]
    rw [hg.fixes (t := .array 3) (by intro x h; cases h)]
  | int n =>
    simp only [packCell, tCell, List.map_cons, List.map_nil]
    rw [hg.fixes (t := .int n) (by intro x h; cases h)]

theorem packInList_map (hg : Transport g) (c : Component) (i : Nat) (a : MetaAttribute) : (packInList c i a).map g = tInList g c i a := by
  unfold packInList tInList
  split
  · rw [List.map_cons, List.map_nil, hg.fixes (by intro x h; cases h)]
  · exact packCell_map hg _

theorem map_flatMap {α : Type} {f p : α → List Token} {l : List α} (h : ∀ a ∈ l, (f a).map g = p a) : (l.flatMap f).map g = l.flatMap p := by
  induction l with
  | nil => rfl
  | cons a l ih =>
    rw [List.flatMap_cons, List.flatMap_cons, List.map_append, h a (by simp), ih fun b hb => h b (List.mem_cons_of_mem _ hb)]

theorem packElement_writes (hg : Transport g) (D : Dataset) (compact : Bool) (c : Component) (i : Nat) :
    Writes g (packElement D compact c i) (tElement g D compact c i) := by
  unfold packElement tElement
  cases compact with
  | true =>
    simp only [if_true]
    unfold elementInList
    exact Writes.cons (packArray_writes hg _) (Writes.some (map_flatMap fun a _ => packInList_map hg c i a))
  | false =>
    simp only [Bool.false_eq_true, if_false]
    unfold elementInDict
    refine Writes.cons (packMap_writes hg _) (Writes.some (map_flatMap fun a _ => ?_))
    rw [List.map_cons, packCell_map hg, hg.fixes (by intro x h; cases h)]

theorem packComponent_writes (hg : Transport g) (D : Dataset) (compact : Bool) (v : View) :
    Writes g (packComponent D compact v) (tComponent g D compact v) := by
  unfold packComponent tComponent tElements
  refine Writes.cons (Or.inr ?_) (Writes.cons (packArray_writes hg _) (Writes.flatMap fun k _ => packElement_writes hg D compact _ _))
  rw [Option.map_some, hg.fixes (by intro x h; cases h)]

theorem packScenario_writes (hg : Transport g) (D : Dataset) (compact : Bool) (vs : List View) :
    Writes g (packScenario D compact vs) (tScenario g D compact vs) :=
  Writes.cons (packMap_writes hg _) (Writes.flatMap fun v _ => packComponent_writes hg D compact v)

theorem serialize_writes (hg : Transport g) (D : Dataset) (compact : Bool) : Writes g (serialize D compact) (tRoot g D compact) := by
  have hstr : ∀ s, g (.str s) = .str s := fun s => hg.fixes (by intro x h; cases h)
  have hmap : ∀ s, g (.map s) = .map s := fun s => hg.fixes (by intro x h; cases h)
  have hbool : ∀ s, g (.bool s) = .bool s := fun s => hg.fixes (by intro x h; cases h)
  have h1 : Writes g (packRoot D) [.map 5, .str "version", .str "1.0", .str "type", .str D.dataset.name, .str "is_batch", .bool D.isBatch] := by
    refine Or.inr ?_
    simp only [packRoot, List.map_cons, List.map_nil, Option.map_some, hstr, hmap, hbool]
  have h2 : Writes g (packAttributes D compact) (.str "attributes" :: tAttributes D compact) := by
    unfold packAttributes tAttributes sentAttributes
    refine Writes.cons (Or.inr (by rw [Option.map_some, hstr])) (Writes.cons (packMap_writes hg _) (Writes.flatMap fun x _ => ?_))
    unfold tAttributes1
    refine Writes.cons (Or.inr (by rw [Option.map_some, hstr])) (Writes.cons (packArray_writes hg _) (Or.inr ?_))
    rw [List.map_map, List.map_map]
    exact List.map_congr_left fun a _ => by simp only [Function.comp_apply, Option.map_some, hstr]
  have h3 : Writes g (packData D compact) (.str "data" :: tData g D compact) := by
    unfold packData tData
    refine Writes.cons (Or.inr (by rw [Option.map_some, hstr])) (Writes.append ?_ (Writes.flatMap fun vs _ => packScenario_writes hg D compact vs))
    split
    · exact Writes.cons (packArray_writes hg _) Writes.nil
    · exact Writes.nil
  have := (h1.append h2).append h3
  unfold serialize
  simpa [tRoot] using this

/-- What arrives behind the transport if nothing was thrown. -/
theorem arrives (hg : Transport g) {D : Dataset} {compact : Bool} {ts : List Token} (h : serialize D compact = ts.map some) :
    ts.map g = tRoot g D compact := by
  rcases serialize_writes hg D compact with h1 | h1
  · rw [h] at h1
    simp at h1
  · rw [h, List.map_map] at h1
    have : (ts.map g).map some = (tRoot g D compact).map some := by
      rw [← h1, List.map_map]
      rfl
    exact (List.map_injective_iff.mpr fun _ _ h => Option.some.inj h) this

/-! ## Complete objects -/

/-- `n` complete objects, among which there is a map if `b`. -/
def Objs (n : Nat) (b : Bool) (ts : List Token) : Prop :=
  ∀ m rest, skip (m + n) (ts ++ rest) = (skip m rest).map fun x => (b || x.1, x.2)

theorem Objs.nil : Objs 0 false [] := by
  intro m rest
  simp

theorem Objs.append {n1 n2 : Nat} {b1 b2 : Bool} {t1 t2 : List Token} (h1 : Objs n1 b1 t1) (h2 : Objs n2 b2 t2) :
    Objs (n1 + n2) (b1 || b2) (t1 ++ t2) := by
  intro m rest
  rw [List.append_assoc, show m + (n1 + n2) = (m + n2) + n1 by omega, h1, h2, Option.map_map]
  congr 1
  funext x
  simp [Bool.or_assoc]

theorem skip_succ (n : Nat) (t : Token) (r : List Token) :
    skip (n + 1) (t :: r) = (skip (n + arity t) r).map fun x => ((match t with | .map _ => true | _ => x.1), x.2) := by
  rfl

theorem Objs.atom {t : Token} (ha : arity t = 0) (hm : ∀ n, t ≠ .map n) : Objs 1 false [t] := by
  intro m rest
  rw [List.singleton_append, skip_succ, ha, Nat.add_zero]
  congr 1
  funext x
  cases t with
  | map n => exact absurd rfl (hm n)
  | _ => simp

theorem Objs.array {n : Nat} {b : Bool} {ts : List Token} (h : Objs n b ts) : Objs 1 b (.array n :: ts) := by
  intro m rest
  rw [List.cons_append, skip_succ, show arity (.array n) = n from rfl, h, Option.map_map]
  rfl

theorem Objs.map {n : Nat} {b : Bool} {ts : List Token} (h : Objs (2 * n) b ts) : Objs 1 true (.map n :: ts) := by
  intro m rest
  rw [List.cons_append, skip_succ, show arity (.map n) = 2 * n from rfl, h, Option.map_map]
  rfl

theorem Objs.flatMap {α : Type} {k : Nat} {b : Bool} {f : α → List Token} {l : List α} (h : ∀ a ∈ l, Objs k b (f a)) :
    Objs (k * l.length) (b && !l.isEmpty) (l.flatMap f) := by
  induction l with
  | nil => simpa using Objs.nil
  | cons a l ih =>
    have h1 := (h a (by simp)).append (ih fun c hc => h c (List.mem_cons_of_mem _ hc))
    rw [List.flatMap_cons, show k * (a :: l).length = k + k * l.length by rw [List.length_cons, Nat.mul_succ]; omega]
    have h2 : (b || b && !l.isEmpty) = (b && !(a :: l).isEmpty) := by cases b <;> simp
    rwa [h2] at h1

theorem parseSkip_objs {b : Bool} {ts : List Token} (h : Objs 1 b ts) (rest : List Token) : parseSkip (ts ++ rest) = .ok (b, rest) := by
  unfold parseSkip
  have := h 0 rest
  rw [Nat.zero_add] at this
  rw [this, skip]
  simp

theorem tPhase_objs (hg : Transport g) (x : Option Real) : Objs 1 false [tPhase g x] := by
  cases x with
  | none => exact Objs.atom rfl (by intro n h; cases h)
  | some y =>
    show Objs 1 false [g (.float y)]
    rcases hg (.float y) with h | ⟨n, _, h⟩ <;> rw [h] <;> exact Objs.atom rfl (by intro n h; cases h)

theorem tCell_objs (hg : Transport g) (x : Cell) : Objs 1 false (tCell g x) := by
  cases x with
  | real y => exact tPhase_objs hg y
  | three a b c =>
    exact Objs.array (n := 3) (((tPhase_objs hg a).append (tPhase_objs hg b)).append (tPhase_objs hg c))
  | int n => exact Objs.atom rfl (by intro n h; cases h)

theorem tInList_objs (hg : Transport g) (c : Component) (i : Nat) (a : MetaAttribute) : Objs 1 false (tInList g c i a) := by
  unfold tInList
  split
  · exact Objs.atom rfl (by intro n h; cases h)
  · exact tCell_objs hg _

theorem tElement_objs (hg : Transport g) (D : Dataset) (compact : Bool) (c : Component) (i : Nat) :
    Objs 1 (!compact) (tElement g D compact c i) := by
  unfold tElement
  cases compact with
  | true =>
    simp only [if_true]
    have := Objs.flatMap (k := 1) (b := false) (l := attributesOf D c.component.name) (f := tInList g c i) fun a _ => tInList_objs hg c i a
    rw [Nat.one_mul, Bool.false_and] at this
    exact this.array
  | false =>
    simp only [Bool.false_eq_true, if_false]
    refine Objs.map (b := false) ?_
    have := Objs.flatMap (k := 2) (b := false) (l := valid c i) (f := fun a => .str a.name :: tCell g (c.cell i a.name)) fun a _ => by
      exact Objs.append (n1 := 1) (b1 := false) (t1 := [.str a.name]) (Objs.atom rfl (by intro n h; cases h)) (tCell_objs hg _)
    rwa [Bool.false_and] at this

theorem tElements_objs (hg : Transport g) (D : Dataset) (compact : Bool) (v : View) (hv : 0 < v.size) :
    Objs 1 (!compact) (.array v.size :: tElements g D compact v) := by
  have := Objs.flatMap (k := 1) (b := !compact) (l := List.range v.size) (f := fun k => tElement g D compact v.source (v.idx + k)) fun k _ =>
    tElement_objs hg D compact _ _
  rw [Nat.one_mul, List.length_range] at this
  have h2 : (List.range v.size).isEmpty = false := by
    rw [List.isEmpty_eq_false_iff]
    intro h
    rw [List.range_eq_nil] at h
    omega
  rw [h2, Bool.not_false, Bool.and_true] at this
  exact this.array

/-! ## Repetitions -/

theorem times_forall {α β : Type} {p : Parse β} {f : α → List Token} {R : α → β → Prop} :
    ∀ {l : List α}, (∀ a ∈ l, ∀ rest, ∃ b, p (f a ++ rest) = .ok (b, rest) ∧ R a b) → ∀ rest,
      ∃ bs, times p l.length (l.flatMap f ++ rest) = .ok (bs, rest) ∧ List.Forall₂ R l bs
  | [], _, rest => ⟨[], rfl, List.Forall₂.nil⟩
  | a :: l, h, rest => by
    obtain ⟨b, h1, h2⟩ := h a (by simp) (l.flatMap f ++ rest)
    obtain ⟨bs, h3, h4⟩ := times_forall (l := l) (fun c hc => h c (List.mem_cons_of_mem _ hc)) rest
    refine ⟨b :: bs, ?_, List.Forall₂.cons h2 h4⟩
    rw [List.flatMap_cons, List.append_assoc, List.length_cons, times, h1]
    simp only [h3]

/-- What the deserialiser remembers about the component of a view. -/
def Remembers (g : Token → Token) (D : Dataset) (compact : Bool) (v : View) (b : ByteMeta) : Prop :=
  b.component = v.source.component.name ∧ b.size = v.size ∧ b.hasMap = !compact ∧
    ∃ rest, b.offset = .array v.size :: (tElements g D compact v ++ rest)

theorem preCountComponent_view (hg : Transport g) (D : Dataset) (compact : Bool) (v : View) (hv : 0 < v.size) (rest : List Token) :
    ∃ b, preCountComponent (tComponent g D compact v ++ rest) = .ok (b, rest) ∧ Remembers g D compact v b := by
  refine ⟨⟨v.source.component.name, v.size, .array v.size :: (tElements g D compact v ++ rest), !compact⟩, ?_, rfl, rfl, rfl, rest, rfl⟩
  unfold tComponent preCountComponent
  have := parseSkip_objs (tElements_objs hg D compact v hv) rest
  rw [List.cons_append] at this
  simp only [List.cons_append, parseString, parseArray, this]

theorem preCountScenario_views (hg : Transport g) (D : Dataset) (compact : Bool) (vs : List View) (hvs : ∀ v ∈ vs, 0 < v.size)
    (rest : List Token) :
    ∃ bs, preCountScenario (tScenario g D compact vs ++ rest) = .ok (bs, rest) ∧ List.Forall₂ (Remembers g D compact) vs bs := by
  obtain ⟨bs, h1, h2⟩ := times_forall (p := preCountComponent) (f := tComponent g D compact) (R := Remembers g D compact) (l := vs)
    (fun v hv rest => preCountComponent_view hg D compact v (hvs v hv) rest) rest
  refine ⟨bs, ?_, h2⟩
  unfold tScenario preCountScenario
  simp only [List.cons_append, parseMap, h1]

theorem views_pos {D : Dataset} {a b : Nat} {v : View} (h : v ∈ views D a b) : 0 < v.size := by
  unfold views at h
  simpa using (List.mem_filter.mp h).2

theorem preCountData_views (hg : Transport g) {D : Dataset} (compact : Bool) (hs : D.isBatch = false → D.batchSize = 1) (R : Root)
    (h1 : R.hasIsBatch = true) (h2 : R.isBatch = D.isBatch) :
    ∃ d, preCountData R (tData g D compact) = .ok ((d, D.isBatch), []) ∧ List.Forall₂ (List.Forall₂ (Remembers g D compact)) (scenarioViews D) d := by
  obtain ⟨d, h3, h4⟩ := times_forall (p := preCountScenario) (f := tScenario g D compact) (R := List.Forall₂ (Remembers g D compact))
    (l := scenarioViews D) (fun vs hvs rest => preCountScenario_views hg D compact vs (fun v hv => by
      unfold scenarioViews at hvs
      obtain ⟨s, -, rfl⟩ := List.mem_map.mp hvs
      exact views_pos hv) rest) []
  refine ⟨d, ?_, h4⟩
  have hl : (scenarioViews D).length = D.batchSize := by simp [scenarioViews]
  rw [hl] at h3
  unfold preCountData tData
  cases hb : D.isBatch with
  | true =>
    rw [List.append_nil] at h3
    simp only [if_true, List.singleton_append, parseMapArray, h1, h2, hb, h3]
    simp
  | false =>
    have h5 := hs hb
    have h6 : ∃ vs, scenarioViews D = [vs] := by
      unfold scenarioViews
      rw [h5]
      exact ⟨_, rfl⟩
    obtain ⟨vs, h6⟩ := h6
    rw [h6, h5, List.append_nil] at h3
    simp only [Bool.false_eq_true, if_false, List.nil_append, h6]
    rw [List.flatMap_cons, List.flatMap_nil, List.append_nil] at h3 ⊢
    rw [show parseMapArray (tScenario g D compact vs) = .ok ((vs.length, true), vs.flatMap (tComponent g D compact)) from rfl]
    simp only [h1, h2, hb, h3]
    simp

theorem times_strings : ∀ (l : List MetaAttribute) (rest : List Token),
    times parseString l.length ((l.map fun a => Token.str a.name) ++ rest) = .ok (l.map MetaAttribute.name, rest)
  | [], _ => rfl
  | a :: l, rest => by
    rw [List.length_cons, List.map_cons, List.cons_append, times]
    simp only [parseString, times_strings l rest, List.map_cons]

theorem forall₂_eq_map {α β : Type} {f : α → β} {l : List α} {bs : List β} (h : List.Forall₂ (fun a b => b = f a) l bs) : bs = l.map f := by
  induction h with
  | nil => rfl
  | cons h1 _ ih => rw [h1, ih, List.map_cons]

theorem readAttributes_sent (D : Dataset) (compact : Bool) (rest : List Token) :
    readAttributes (tAttributes D compact ++ rest) = .ok ((sentAttributes D compact).map fun x => (x.1, x.2.map MetaAttribute.name), rest) := by
  obtain ⟨bs, h1, h2⟩ := times_forall (p := readAttributes1) (f := tAttributes1)
    (R := fun (x : String × List MetaAttribute) b => b = (x.1, x.2.map MetaAttribute.name))
    (l := sentAttributes D compact) (fun x _ rest => by
      refine ⟨_, ?_, rfl⟩
      unfold tAttributes1 readAttributes1
      simp only [List.cons_append, parseString, parseArray, times_strings]) rest
  unfold tAttributes readAttributes
  simp only [List.cons_append, parseMap, h1]
  rw [forall₂_eq_map h2]

/-- The root of the message, behind any transport. -/
theorem rootLoop_message (hg : Transport g) {D : Dataset} (compact : Bool) (hs : D.isBatch = false → D.batchSize = 1) :
    ∃ d, List.Forall₂ (List.Forall₂ (Remembers g D compact)) (scenarioViews D) d ∧
      ∃ rest, parseMap (tRoot g D compact) = .ok (5, rest) ∧
        rootLoop 5 ⟨none, none, false, false, none, none⟩ rest =
          .ok (⟨some "1.0", some D.dataset.name, D.isBatch, true,
            some ((sentAttributes D compact).map fun x => (x.1, x.2.map MetaAttribute.name)), some d⟩, []) := by
  obtain ⟨d, h1, h2⟩ := preCountData_views hg compact hs
    ⟨some "1.0", some D.dataset.name, D.isBatch, true, some ((sentAttributes D compact).map fun x => (x.1, x.2.map MetaAttribute.name)), none⟩ rfl rfl
  refine ⟨d, h2, _, rfl, ?_⟩
  have e1 : ("type" = "version") = False := by decide
  have e2 : ("is_batch" = "version") = False := by decide
  have e3 : ("is_batch" = "type") = False := by decide
  have e4 : ("attributes" = "version") = False := by decide
  have e5 : ("attributes" = "type") = False := by decide
  have e6 : ("attributes" = "is_batch") = False := by decide
  have e7 : ("data" = "version") = False := by decide
  have e8 : ("data" = "type") = False := by decide
  have e9 : ("data" = "is_batch") = False := by decide
  have e10 : ("data" = "attributes") = False := by decide
  simp only [rootLoop, parseString, rootValue, parseBool, if_true, e1, e2, e3, e4, e5, e6, e7, e8, e9, e10, if_false, readAttributes_sent,
    Option.isSome_none, Bool.false_eq_true, false_and, h1]

end PGM.Serial
