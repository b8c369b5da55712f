import Verif.Serial.Json
import Verif.Serial.Announce

/-! # Serialisation: the text of JSON and back -/

namespace PGM.Serial

/-! ## Messages as trees -/

mutual
inductive Tree
  | atom (t : Token)
  | array (l : Trees)
  | map (l : Pairs)
inductive Trees
  | nil
  | cons (x : Tree) (l : Trees)
inductive Pairs
  | nil
  | cons (k : String) (x : Tree) (l : Pairs)
end

def Trees.length : Trees → Nat
  | .nil => 0
  | .cons _ l => l.length + 1

def Pairs.length : Pairs → Nat
  | .nil => 0
  | .cons _ _ l => l.length + 1

mutual
def Tree.tokens : Tree → List Token
  | .atom t => [t]
  | .array l => .array l.length :: l.tokens
  | .map l => .map l.length :: l.tokens
def Trees.tokens : Trees → List Token
  | .nil => []
  | .cons x l => x.tokens ++ l.tokens
def Pairs.tokens : Pairs → List Token
  | .nil => []
  | .cons k x l => .str k :: (x.tokens ++ l.tokens)
end

mutual
def Tree.pieces : Tree → List Piece
  | .atom t => [text t]
  | .array l => .openArray :: (l.pieces ++ [.closeArray])
  | .map l => .openMap :: (l.pieces ++ [.closeMap])
def Trees.pieces : Trees → List Piece
  | .nil => []
  | .cons x .nil => x.pieces
  | .cons x (.cons y l) => x.pieces ++ .comma :: (Trees.cons y l).pieces
def Pairs.pieces : Pairs → List Piece
  | .nil => []
  | .cons k x .nil => .str k :: .colon :: x.pieces
  | .cons k x (.cons k' y l) => .str k :: .colon :: (x.pieces ++ .comma :: (Pairs.cons k' y l).pieces)
end

/-- The event of an atom. -/
def evt (plain : ℚ → Bool) : Token → Event
  | .nil => .null
  | .bool b => .bool b
  | .int n => .int n
  | .float (.fin q) => if plain q then .int q.num else .float q
  | .float .inf => .str "inf"
  | .float .ninf => .str "-inf"
  | .str s => .str s
  | .array _ => .null
  | .map _ => .null

mutual
def Tree.events (plain : ℚ → Bool) : Tree → List Event
  | .atom t => [evt plain t]
  | .array l => .startArray :: (l.events plain ++ [.endArray])
  | .map l => .startObject :: (l.events plain ++ [.endObject])
def Trees.events (plain : ℚ → Bool) : Trees → List Event
  | .nil => []
  | .cons x l => x.events plain ++ l.events plain
def Pairs.events (plain : ℚ → Bool) : Pairs → List Event
  | .nil => []
  | .cons k x l => .key k :: (x.events plain ++ l.events plain)
end

/-- Not a container. -/
def Atomic (t : Token) : Prop := (∀ n, t ≠ .array n) ∧ (∀ n, t ≠ .map n) ∧ ∀ s, t = .str s → stringToken s = .str s

mutual
/-- At most `d` containers deep, with sizes that fit. -/
def Tree.Good : Nat → Tree → Prop
  | _, .atom t => Atomic t
  | 0, .array _ => False
  | 0, .map _ => False
  | d + 1, .array l => l.length < 2 ^ 32 ∧ l.Good d
  | d + 1, .map l => l.length < 2 ^ 32 ∧ l.Good d
def Trees.Good : Nat → Trees → Prop
  | _, .nil => True
  | d, .cons x l => x.Good d ∧ l.Good d
def Pairs.Good : Nat → Pairs → Prop
  | _, .nil => True
  | d, .cons _ x l => x.Good d ∧ l.Good d
end

/-- Without the blanks. -/
def strip (ps : List Piece) : List Piece := ps.filter fun p => match p with | .space => false | .newline _ => false | _ => true

theorem strip_append (a b : List Piece) : strip (a ++ b) = strip a ++ strip b := List.filter_append ..

/-! ## Writing -/

theorem printIndent_top (i : Int) (m : Nat) (out : List Piece) (n : Nat) (e b : Bool) (st : List MapArray) :
    ∃ W b', strip W = [] ∧ printIndent ⟨i, m, out, ⟨n, e, b⟩ :: st⟩ = ⟨i, m, out ++ W, ⟨n, e, b'⟩ :: st⟩ := by
  unfold printIndent
  split_ifs with h1 h2
  · exact ⟨[], b, rfl, by rw [List.append_nil]⟩
  · simp only
    split_ifs with h3
    · exact ⟨[], false, rfl, by rw [List.append_nil]⟩
    · exact ⟨[.space], b, rfl, rfl⟩
  · exact ⟨[.newline _], b, rfl, rfl⟩

theorem endContainer_top (i : Int) (m : Nat) (out : List Piece) (x : MapArray) (st : List MapArray) (p : Piece) :
    ∃ W, strip W = [] ∧ endContainer ⟨i, m, out, x :: st⟩ p = ⟨i, m, out ++ W ++ [p], st⟩ := by
  unfold endContainer
  simp only
  split_ifs with h1
  · unfold printIndent
    split_ifs with h2 h3
    · exact ⟨[], rfl, by rw [List.append_nil]; rfl⟩
    · simp only at h3
      omega
    · exact ⟨[.newline _], rfl, rfl⟩
  · exact ⟨[], rfl, by rw [List.append_nil]; rfl⟩

theorem endItem_top (i : Int) (m : Nat) (out : List Piece) (n : Nat) (e b : Bool) (st : List MapArray) :
    endItem ⟨i, m, out, ⟨n, e, b⟩ :: st⟩ = ⟨i, m, out ++ (if 0 < n - 1 then [.comma] else []), ⟨n - 1, e, b⟩ :: st⟩ := by
  unfold endItem
  simp only
  split_ifs with h
  · rfl
  · rw [List.append_nil]

theorem endKey_eq (c : Conv) : ∃ W, strip W = [.colon] ∧ endKey c = { c with out := c.out ++ W } := by
  unfold endKey
  split_ifs with h
  · exact ⟨[.colon], rfl, rfl⟩
  · refine ⟨[.colon, .space], rfl, ?_⟩
    unfold Conv.write
    simp

theorem drive_cons (fs : List Frame) (c : Conv) (t : Token) (ts : List Token) :
    drive fs c (t :: ts) = drive (visit fs c t).1 (visit fs c t).2 ts := rfl

theorem strip_text {t : Token} : strip [text t] = [text t] := by
  cases t with
  | float x => cases x <;> rfl
  | _ => rfl

theorem visit_atomic {t : Token} (h : Atomic t) (fs : List Frame) (c : Conv) : visit fs c t = finish fs (c.write (text t)) := by
  cases t with
  | array n => exact absurd rfl (h.1 n)
  | map n => exact absurd rfl (h.2.1 n)
  | _ => rfl

mutual
theorem drive_tree : ∀ (x : Tree) (d : Nat), x.Good d → ∀ (fs : List Frame) (i : Int) (m : Nat) (out : List Piece) (st : List MapArray)
    (rest : List Token), ∃ W, strip W = x.pieces ∧
      drive fs ⟨i, m, out, st⟩ (x.tokens ++ rest) = drive (finish fs ⟨i, m, out ++ W, st⟩).1 (finish fs ⟨i, m, out ++ W, st⟩).2 rest
  | .atom t, d, h, fs, i, m, out, st, rest => by
    refine ⟨[text t], by rw [strip_text, Tree.pieces], ?_⟩
    rw [Tree.tokens, List.singleton_append, drive_cons, visit_atomic (by simpa [Tree.Good] using h)]
    rfl
  | .array .nil, d, h, fs, i, m, out, st, rest => by
    obtain ⟨W, h1, h2⟩ := endContainer_top i m (out ++ [.openArray]) ⟨0, true, true⟩ st .closeArray
    refine ⟨.openArray :: (W ++ [.closeArray]), ?_, ?_⟩
    · rw [show strip (.openArray :: (W ++ [.closeArray])) = .openArray :: strip (W ++ [.closeArray]) from rfl, strip_append, h1]
      simp [Tree.pieces, Trees.pieces, strip]
    · rw [Tree.tokens, Trees.tokens, Trees.length, List.cons_append, List.nil_append, drive_cons, visit, if_pos rfl,
        show startContainer ⟨i, m, out, st⟩ .openArray 0 = ⟨i, m, out ++ [.openArray], ⟨0, true, true⟩ :: st⟩ from rfl, h2]
      simp
  | .array (.cons x l), 0, h, fs, i, m, out, st, rest => by simp [Tree.Good] at h
  | .array (.cons x l), d + 1, h, fs, i, m, out, st, rest => by
    obtain ⟨W1, b, h1, h2⟩ := printIndent_top i m (out ++ [.openArray]) (Trees.cons x l).length false true st
    obtain ⟨W2, h3, h4⟩ := drive_trees x l d (by simpa [Tree.Good] using h.2) fs i m (out ++ [.openArray] ++ W1) b st rest
    refine ⟨.openArray :: (W1 ++ W2), ?_, ?_⟩
    · rw [show strip (.openArray :: (W1 ++ W2)) = .openArray :: strip (W1 ++ W2) from rfl, strip_append, h1, List.nil_append, h3, Tree.pieces]
    · rw [Tree.tokens, List.cons_append, drive_cons, visit, if_neg (by simp [Trees.length]),
        show startContainer ⟨i, m, out, st⟩ .openArray (Trees.cons x l).length =
          ⟨i, m, out ++ [.openArray], ⟨(Trees.cons x l).length, false, true⟩ :: st⟩ from rfl, h2, h4]
      simp
  | .map .nil, d, h, fs, i, m, out, st, rest => by
    obtain ⟨W, h1, h2⟩ := endContainer_top i m (out ++ [.openMap]) ⟨0, true, true⟩ st .closeMap
    refine ⟨.openMap :: (W ++ [.closeMap]), ?_, ?_⟩
    · rw [show strip (.openMap :: (W ++ [.closeMap])) = .openMap :: strip (W ++ [.closeMap]) from rfl, strip_append, h1]
      simp [Tree.pieces, Pairs.pieces, strip]
    · rw [Tree.tokens, Pairs.tokens, Pairs.length, List.cons_append, List.nil_append, drive_cons, visit, if_pos rfl,
        show startContainer ⟨i, m, out, st⟩ .openMap 0 = ⟨i, m, out ++ [.openMap], ⟨0, true, true⟩ :: st⟩ from rfl, h2]
      simp
  | .map (.cons k x l), 0, h, fs, i, m, out, st, rest => by simp [Tree.Good] at h
  | .map (.cons k x l), d + 1, h, fs, i, m, out, st, rest => by
    obtain ⟨W1, b, h1, h2⟩ := printIndent_top i m (out ++ [.openMap]) (Pairs.cons k x l).length false true st
    obtain ⟨W2, h3, h4⟩ := drive_pairs k x l d (by simpa [Tree.Good] using h.2) fs i m (out ++ [.openMap] ++ W1) b st rest
    refine ⟨.openMap :: (W1 ++ W2), ?_, ?_⟩
    · rw [show strip (.openMap :: (W1 ++ W2)) = .openMap :: strip (W1 ++ W2) from rfl, strip_append, h1, List.nil_append, h3, Tree.pieces]
    · rw [Tree.tokens, List.cons_append, drive_cons, visit, if_neg (by simp [Pairs.length]),
        show startContainer ⟨i, m, out, st⟩ .openMap (Pairs.cons k x l).length =
          ⟨i, m, out ++ [.openMap], ⟨(Pairs.cons k x l).length, false, true⟩ :: st⟩ from rfl, h2, h4]
      simp
termination_by x => sizeOf x
decreasing_by all_goals (simp_wf; try omega)
theorem drive_trees : ∀ (x : Tree) (l : Trees) (d : Nat), (Trees.cons x l).Good d → ∀ (fs : List Frame) (i : Int) (m : Nat) (out : List Piece)
    (b : Bool) (st : List MapArray) (rest : List Token), ∃ W, strip W = (Trees.cons x l).pieces ++ [.closeArray] ∧
      drive (.array (Trees.cons x l).length :: fs) ⟨i, m, out, ⟨(Trees.cons x l).length, false, b⟩ :: st⟩ ((Trees.cons x l).tokens ++ rest) =
        drive (finish fs ⟨i, m, out ++ W, st⟩).1 (finish fs ⟨i, m, out ++ W, st⟩).2 rest
  | x, .nil, d, h, fs, i, m, out, b, st, rest => by
    rw [Trees.Good] at h
    obtain ⟨W1, h1, h2⟩ := drive_tree x d h.1 (.array (Trees.cons x .nil).length :: fs) i m out (⟨(Trees.cons x .nil).length, false, b⟩ :: st) rest
    obtain ⟨W2, h3, h4⟩ := endContainer_top i m (out ++ W1) ⟨0, false, b⟩ st .closeArray
    refine ⟨W1 ++ W2 ++ [.closeArray], ?_, ?_⟩
    · rw [strip_append, strip_append, h1, h3]
      simp [Trees.pieces, strip]
    · rw [Trees.tokens, Trees.tokens, List.append_nil, h2]
      simp only [Trees.length, finish, Nat.zero_add, le_refl, if_true, endItem_top, Nat.sub_self, Nat.lt_irrefl, if_false, List.append_nil]
      rw [h4]
      simp
  | x, .cons y l, d, h, fs, i, m, out, b, st, rest => by
    rw [Trees.Good] at h
    obtain ⟨W1, h1, h2⟩ := drive_tree x d h.1 (.array (Trees.cons x (.cons y l)).length :: fs) i m out
      (⟨(Trees.cons x (.cons y l)).length, false, b⟩ :: st) ((Trees.cons y l).tokens ++ rest)
    obtain ⟨W2, b', h3, h4⟩ := printIndent_top i m (out ++ W1 ++ [.comma]) (Trees.cons y l).length false b st
    obtain ⟨W3, h5, h6⟩ := drive_trees y l d h.2 fs i m (out ++ W1 ++ [.comma] ++ W2) b' st rest
    refine ⟨W1 ++ .comma :: (W2 ++ W3), ?_, ?_⟩
    · rw [strip_append, h1, show strip (.comma :: (W2 ++ W3)) = .comma :: strip (W2 ++ W3) from rfl, strip_append, h3, h5, List.nil_append,
        Trees.pieces]
      simp
    · rw [Trees.tokens, List.append_assoc, h2]
      have e1 : (Trees.cons x (.cons y l)).length = (Trees.cons y l).length + 1 := rfl
      have e2 : 0 < (Trees.cons y l).length := by simp [Trees.length]
      rw [e1]
      simp only [finish, endItem_top, Nat.add_sub_cancel, e2, if_true]
      rw [if_neg (by omega)]
      simp only [h4]
      rw [h6]
      simp
termination_by x l => sizeOf x + sizeOf l
decreasing_by all_goals (simp_wf; try omega)
theorem drive_pairs : ∀ (k : String) (x : Tree) (l : Pairs) (d : Nat), (Pairs.cons k x l).Good d → ∀ (fs : List Frame) (i : Int) (m : Nat)
    (out : List Piece) (b : Bool) (st : List MapArray) (rest : List Token), ∃ W, strip W = (Pairs.cons k x l).pieces ++ [.closeMap] ∧
      drive (.key (Pairs.cons k x l).length :: fs) ⟨i, m, out, ⟨(Pairs.cons k x l).length, false, b⟩ :: st⟩ ((Pairs.cons k x l).tokens ++ rest) =
        drive (finish fs ⟨i, m, out ++ W, st⟩).1 (finish fs ⟨i, m, out ++ W, st⟩).2 rest
  | k, x, .nil, d, h, fs, i, m, out, b, st, rest => by
    rw [Pairs.Good] at h
    obtain ⟨W0, h01, h02⟩ := endKey_eq ⟨i, m, out ++ [.str k], ⟨(Pairs.cons k x .nil).length, false, b⟩ :: st⟩
    obtain ⟨W1, h1, h2⟩ := drive_tree x d h.1 (.value (Pairs.cons k x .nil).length :: fs) i m (out ++ [.str k] ++ W0)
      (⟨(Pairs.cons k x .nil).length, false, b⟩ :: st) rest
    obtain ⟨W2, h3, h4⟩ := endContainer_top i m (out ++ [.str k] ++ W0 ++ W1) ⟨0, false, b⟩ st .closeMap
    refine ⟨.str k :: (W0 ++ W1 ++ W2 ++ [.closeMap]), ?_, ?_⟩
    · rw [show strip (.str k :: (W0 ++ W1 ++ W2 ++ [.closeMap])) = .str k :: strip (W0 ++ W1 ++ W2 ++ [.closeMap]) from rfl, strip_append, strip_append,
        strip_append, h1, h3, h01]
      simp [Pairs.pieces, strip]
    · rw [Pairs.tokens, Pairs.tokens, List.append_nil, List.cons_append, drive_cons]
      simp only [visit, text, Conv.write, finish]
      rw [h02]
      simp only
      rw [h2]
      simp only [Pairs.length, finish, Nat.zero_add, le_refl, if_true, endItem_top, Nat.sub_self, Nat.lt_irrefl, if_false, List.append_nil]
      rw [h4]
      simp
  | k, x, .cons k' y l, d, h, fs, i, m, out, b, st, rest => by
    rw [Pairs.Good] at h
    obtain ⟨W0, h01, h02⟩ := endKey_eq ⟨i, m, out ++ [.str k], ⟨(Pairs.cons k x (.cons k' y l)).length, false, b⟩ :: st⟩
    obtain ⟨W1, h1, h2⟩ := drive_tree x d h.1 (.value (Pairs.cons k x (.cons k' y l)).length :: fs) i m (out ++ [.str k] ++ W0)
      (⟨(Pairs.cons k x (.cons k' y l)).length, false, b⟩ :: st) ((Pairs.cons k' y l).tokens ++ rest)
    obtain ⟨W2, b', h3, h4⟩ := printIndent_top i m (out ++ [.str k] ++ W0 ++ W1 ++ [.comma]) (Pairs.cons k' y l).length false b st
    obtain ⟨W3, h5, h6⟩ := drive_pairs k' y l d h.2 fs i m (out ++ [.str k] ++ W0 ++ W1 ++ [.comma] ++ W2) b' st rest
    refine ⟨.str k :: (W0 ++ (W1 ++ .comma :: (W2 ++ W3))), ?_, ?_⟩
    · rw [show strip (.str k :: (W0 ++ (W1 ++ .comma :: (W2 ++ W3)))) = .str k :: strip (W0 ++ (W1 ++ .comma :: (W2 ++ W3))) from rfl, strip_append,
        strip_append, h1, show strip (.comma :: (W2 ++ W3)) = .comma :: strip (W2 ++ W3) from rfl, strip_append, h3, h5, h01, List.nil_append,
        Pairs.pieces]
      simp
    · rw [Pairs.tokens, List.cons_append, drive_cons, List.append_assoc]
      simp only [visit, text, Conv.write, finish]
      rw [h02]
      simp only
      rw [h2]
      have e1 : (Pairs.cons k x (.cons k' y l)).length = (Pairs.cons k' y l).length + 1 := rfl
      have e2 : 0 < (Pairs.cons k' y l).length := by simp [Pairs.length]
      rw [e1]
      simp only [finish, endItem_top, Nat.add_sub_cancel, e2, if_true]
      rw [if_neg (by omega)]
      simp only [h4]
      rw [h6]
      simp
termination_by _ x l => sizeOf x + sizeOf l
decreasing_by all_goals (simp_wf; try omega)
end

/-- The text of a message, without blanks. -/
theorem toJson_strip {x : Tree} {d : Nat} (h : x.Good d) (indent : Int) (isBatch : Bool) :
    strip (toJson indent isBatch x.tokens) = x.pieces := by
  obtain ⟨W, h1, h2⟩ := drive_tree x d h [] indent (if isBatch then 4 else 3) [] [] []
  rw [List.append_nil] at h2
  unfold toJson
  rw [h2]
  simpa [finish, drive] using h1

/-! ## Reading the text -/

variable {plain : ℚ → Bool}

theorem saxRun_strip : ∀ (ps : List Piece) (x : Sax), saxRun plain x ps = saxRun plain x (strip ps)
  | [], x => rfl
  | p :: ps, x => by
    by_cases hp : p = .space ∨ ∃ n, p = .newline n
    · have h1 : strip (p :: ps) = strip ps := by
        rcases hp with rfl | ⟨n, rfl⟩ <;> rfl
      have h2 : saxStep plain x p = some (x, []) := by
        rcases hp with rfl | ⟨n, rfl⟩ <;> rfl
      rw [h1, ← saxRun_strip ps x, saxRun, h2]
      simp only
      cases saxRun plain x ps with
      | none => rfl
      | some y => rfl
    · have h1 : strip (p :: ps) = p :: strip ps := by
        cases p with
        | space => exact absurd (Or.inl rfl) hp
        | newline n => exact absurd (Or.inr ⟨n, rfl⟩) hp
        | _ => rfl
      rw [h1, saxRun, saxRun]
      cases saxStep plain x p with
      | none => rfl
      | some y =>
        simp only
        rw [saxRun_strip ps y.1]

theorem saxRun_append {x y : Sax} {a : List Piece} {es : List Event} (h : saxRun plain x a = some (y, es)) (b : List Piece) {z : Sax}
    {es' : List Event} (h' : saxRun plain y b = some (z, es')) : saxRun plain x (a ++ b) = some (z, es ++ es') := by
  induction a generalizing x es with
  | nil =>
    rw [saxRun] at h
    cases h
    exact h'
  | cons p a ih =>
    rw [saxRun] at h
    rw [List.cons_append, saxRun]
    cases h1 : saxStep plain x p with
    | none =>
      rw [h1] at h
      cases h
    | some w =>
      obtain ⟨w1, w2⟩ := w
      rw [h1] at h
      simp only at h ⊢
      cases h2 : saxRun plain w1 a with
      | none =>
        rw [h2] at h
        cases h
      | some v =>
        obtain ⟨v1, v2⟩ := v
        rw [h2] at h
        simp only at h
        cases h
        rw [ih h2]
        simp

theorem saxRun_cons {x y z : Sax} {p : Piece} {ps : List Piece} {es es' : List Event} (h : saxStep plain x p = some (y, es))
    (h' : saxRun plain y ps = some (z, es')) : saxRun plain x (p :: ps) = some (z, es ++ es') := by
  rw [saxRun, h]
  simp only [h']

theorem saxStep_atom {m : Mode} (hm : m = .value ∨ m = .valueOrClose) (st : List Bool) {t : Token} (ht : Atomic t) :
    saxStep plain ⟨m, st⟩ (text t) = some (behind st, [evt plain t]) := by
  rcases hm with rfl | rfl
  all_goals
    cases t with
    | array n => exact absurd rfl (ht.1 n)
    | map n => exact absurd rfl (ht.2.1 n)
    | float x => cases x <;> rfl
    | _ => rfl

theorem behind_cons (b : Bool) (st : List Bool) : behind (b :: st) = ⟨.next, b :: st⟩ := rfl

mutual
theorem sax_tree : ∀ (x : Tree) (d : Nat), x.Good d → ∀ (m : Mode) (st : List Bool), m = .value ∨ m = .valueOrClose →
    saxRun plain ⟨m, st⟩ x.pieces = some (behind st, x.events plain)
  | .atom t, d, h, m, st, hm => by
    rw [Tree.pieces, Tree.events]
    exact saxRun_cons (saxStep_atom hm st (by simpa [Tree.Good] using h)) rfl
  | .array .nil, d, h, m, st, hm => by
    rcases hm with rfl | rfl <;> rfl
  | .array (.cons x l), 0, h, m, st, hm => by simp [Tree.Good] at h
  | .array (.cons x l), d + 1, h, m, st, hm => by
    have h1 := sax_trees x l d (by simpa [Tree.Good] using h.2) .valueOrClose st (Or.inr rfl)
    have h2 : saxRun plain ⟨.next, true :: st⟩ [.closeArray] = some (behind st, [.endArray]) := rfl
    have h3 := saxRun_append h1 _ h2
    rw [Tree.pieces, Tree.events]
    have h4 : saxStep plain ⟨m, st⟩ .openArray = some (⟨.valueOrClose, true :: st⟩, [.startArray]) := by
      rcases hm with rfl | rfl <;> rfl
    exact saxRun_cons h4 h3
  | .map .nil, d, h, m, st, hm => by
    rcases hm with rfl | rfl <;> rfl
  | .map (.cons k x l), 0, h, m, st, hm => by simp [Tree.Good] at h
  | .map (.cons k x l), d + 1, h, m, st, hm => by
    have h1 := sax_pairs k x l d (by simpa [Tree.Good] using h.2) .keyOrClose st (Or.inr rfl)
    have h2 : saxRun plain ⟨.next, false :: st⟩ [.closeMap] = some (behind st, [.endObject]) := rfl
    have h3 := saxRun_append h1 _ h2
    rw [Tree.pieces, Tree.events]
    have h4 : saxStep plain ⟨m, st⟩ .openMap = some (⟨.keyOrClose, false :: st⟩, [.startObject]) := by
      rcases hm with rfl | rfl <;> rfl
    exact saxRun_cons h4 h3
termination_by x => sizeOf x
decreasing_by all_goals (simp_wf; try omega)
theorem sax_trees : ∀ (x : Tree) (l : Trees) (d : Nat), (Trees.cons x l).Good d → ∀ (m : Mode) (st : List Bool), m = .value ∨ m = .valueOrClose →
    saxRun plain ⟨m, true :: st⟩ (Trees.cons x l).pieces = some (⟨.next, true :: st⟩, (Trees.cons x l).events plain)
  | x, .nil, d, h, m, st, hm => by
    rw [Trees.Good] at h
    have := sax_tree x d h.1 m (true :: st) hm
    rw [behind_cons] at this
    rw [Trees.pieces, this, Trees.events, Trees.events, List.append_nil]
  | x, .cons y l, d, h, m, st, hm => by
    rw [Trees.Good] at h
    have h1 := sax_tree x d h.1 m (true :: st) hm
    rw [behind_cons] at h1
    have h2 := sax_trees y l d h.2 .value st (Or.inl rfl)
    have h3 : saxStep plain ⟨.next, true :: st⟩ .comma = some (⟨.value, true :: st⟩, []) := rfl
    have h4 := saxRun_append h1 _ (saxRun_cons h3 h2)
    rw [Trees.pieces, h4, Trees.events]
    rfl
termination_by x l => sizeOf x + sizeOf l
decreasing_by all_goals (simp_wf; try omega)
theorem sax_pairs : ∀ (k : String) (x : Tree) (l : Pairs) (d : Nat), (Pairs.cons k x l).Good d → ∀ (m : Mode) (st : List Bool),
    m = .key ∨ m = .keyOrClose →
    saxRun plain ⟨m, false :: st⟩ (Pairs.cons k x l).pieces = some (⟨.next, false :: st⟩, (Pairs.cons k x l).events plain)
  | k, x, .nil, d, h, m, st, hm => by
    rw [Pairs.Good] at h
    have h1 := sax_tree x d h.1 .value (false :: st) (Or.inl rfl)
    rw [behind_cons] at h1
    have h2 : saxStep plain ⟨m, false :: st⟩ (.str k) = some (⟨.colon, false :: st⟩, [.key k]) := by
      rcases hm with rfl | rfl <;> rfl
    have h3 : saxStep plain ⟨.colon, false :: st⟩ .colon = some (⟨.value, false :: st⟩, []) := rfl
    rw [Pairs.pieces, saxRun_cons h2 (saxRun_cons h3 h1), Pairs.events, Pairs.events, List.append_nil]
    rfl
  | k, x, .cons k' y l, d, h, m, st, hm => by
    rw [Pairs.Good] at h
    have h1 := sax_tree x d h.1 .value (false :: st) (Or.inl rfl)
    rw [behind_cons] at h1
    have h5 := sax_pairs k' y l d h.2 .key st (Or.inl rfl)
    have h2 : saxStep plain ⟨m, false :: st⟩ (.str k) = some (⟨.colon, false :: st⟩, [.key k]) := by
      rcases hm with rfl | rfl <;> rfl
    have h3 : saxStep plain ⟨.colon, false :: st⟩ .colon = some (⟨.value, false :: st⟩, []) := rfl
    have h4 : saxStep plain ⟨.next, false :: st⟩ .comma = some (⟨.key, false :: st⟩, []) := rfl
    rw [Pairs.pieces, saxRun_cons h2 (saxRun_cons h3 (saxRun_append h1 _ (saxRun_cons h4 h5))), Pairs.events]
    rfl
termination_by _ x l => sizeOf x + sizeOf l
decreasing_by all_goals (simp_wf; try omega)
end

/-! ## Packing again -/

/-- What JSON does with a token: a float with a text like that of an integer becomes the integer. -/
def viaJson (plain : ℚ → Bool) : Token → Token
  | .float (.fin q) => if plain q then .int q.num else .float (.fin q)
  | t => t

theorem viaJson_transport (h : ∀ q, plain q = true → q.den = 1) : Transport (viaJson plain) := by
  intro t
  cases t with
  | float x =>
    cases x with
    | fin q =>
      simp only [viaJson]
      split_ifs with hq
      · refine Or.inr ⟨q.num, ?_, rfl⟩
        rw [Rat.coe_int_num_of_den_eq_one (h q hq)]
      · exact Or.inl rfl
    | _ => exact Or.inl rfl
  | _ => exact Or.inl rfl

theorem visitEvents_append {v w : Visitor} {a : List Event} (h : visitEvents v a = .ok w) (b : List Event) :
    visitEvents v (a ++ b) = visitEvents w b := by
  induction a generalizing v with
  | nil =>
    rw [visitEvents] at h
    cases h
    rfl
  | cons e a ih =>
    rw [visitEvents] at h
    rw [List.cons_append, visitEvents]
    cases h1 : visitEvent v e with
    | error _ =>
      rw [h1] at h
      cases h
    | ok w' =>
      rw [h1] at h
      exact ih h

theorem visit_atom {t : Token} (ht : Atomic t) (n : Nat) (ts : List Token) (st : List (Nat × List Token)) (root : List Token) :
    visitEvent ⟨(n, ts) :: st, root⟩ (evt plain t) = .ok ⟨(n + 1, ts ++ [viaJson plain t]) :: st, root⟩ := by
  cases t with
  | array n => exact absurd rfl (ht.1 n)
  | map n => exact absurd rfl (ht.2.1 n)
  | float x =>
    cases x with
    | fin q =>
      simp only [evt, viaJson]
      split_ifs <;> rfl
    | inf => rfl
    | ninf => rfl
  | str s =>
    have := ht.2.2 s rfl
    simp only [evt, viaJson, visitEvent, packData_, this]
  | _ => rfl

mutual
theorem visit_tree : ∀ (x : Tree) (d : Nat), x.Good d → ∀ (n : Nat) (ts : List Token) (st : List (Nat × List Token)) (root : List Token),
    st.length + 1 + d ≤ 11 →
    visitEvents ⟨(n, ts) :: st, root⟩ (x.events plain) = .ok ⟨(n + 1, ts ++ x.tokens.map (viaJson plain)) :: st, root⟩
  | .atom t, d, h, n, ts, st, root, hd => by
    rw [Tree.events, visitEvents, visit_atom (by simpa [Tree.Good] using h)]
    rfl
  | .array l, 0, h, n, ts, st, root, hd => by simp [Tree.Good] at h
  | .array l, d + 1, h, n, ts, st, root, hd => by
    rw [Tree.Good] at h
    have h1 := visit_trees l d h.2 0 [] ((n, ts) :: st) root (by simp only [List.length_cons]; omega)
    rw [Tree.events, visitEvents, visitEvent, if_neg (by simp only [List.length_cons]; omega)]
    simp only
    rw [visitEvents_append h1, visitEvents, visitEvent]
    simp only
    rw [if_neg (by omega)]
    simp [packData_, visitEvents, Tree.tokens, viaJson]
  | .map l, 0, h, n, ts, st, root, hd => by simp [Tree.Good] at h
  | .map l, d + 1, h, n, ts, st, root, hd => by
    rw [Tree.Good] at h
    have h1 := visit_pairs l d h.2 0 [] ((n, ts) :: st) root (by simp only [List.length_cons]; omega)
    rw [Tree.events, visitEvents, visitEvent, if_neg (by simp only [List.length_cons]; omega)]
    simp only
    rw [visitEvents_append h1, visitEvents, visitEvent]
    simp only
    rw [if_neg (by omega)]
    simp [packData_, visitEvents, Tree.tokens, viaJson]
theorem visit_trees : ∀ (l : Trees) (d : Nat), l.Good d → ∀ (n : Nat) (ts : List Token) (st : List (Nat × List Token)) (root : List Token),
    st.length + 1 + d ≤ 11 →
    visitEvents ⟨(n, ts) :: st, root⟩ (l.events plain) = .ok ⟨(n + l.length, ts ++ l.tokens.map (viaJson plain)) :: st, root⟩
  | .nil, d, h, n, ts, st, root, hd => by simp [Trees.events, visitEvents, Trees.length, Trees.tokens]
  | .cons x l, d, h, n, ts, st, root, hd => by
    rw [Trees.Good] at h
    rw [Trees.events, visitEvents_append (visit_tree x d h.1 n ts st root hd), visit_trees l d h.2 _ _ st root hd, Trees.length, Trees.tokens,
      List.map_append, List.append_assoc, Nat.add_assoc, Nat.add_comm 1]
theorem visit_pairs : ∀ (l : Pairs) (d : Nat), l.Good d → ∀ (n : Nat) (ts : List Token) (st : List (Nat × List Token)) (root : List Token),
    st.length + 1 + d ≤ 11 →
    visitEvents ⟨(n, ts) :: st, root⟩ (l.events plain) = .ok ⟨(n + l.length, ts ++ l.tokens.map (viaJson plain)) :: st, root⟩
  | .nil, d, h, n, ts, st, root, hd => by simp [Pairs.events, visitEvents, Pairs.length, Pairs.tokens]
  | .cons k x l, d, h, n, ts, st, root, hd => by
    rw [Pairs.Good] at h
    rw [Pairs.events, visitEvents, visitEvent]
    simp only
    rw [visitEvents_append (visit_tree x d h.1 n _ st root hd), visit_pairs l d h.2 _ _ st root hd, Pairs.length, Pairs.tokens]
    simp [viaJson, Nat.add_comm, Nat.add_assoc]
end

/-- A message whose root is a map survives JSON. -/
theorem fromJson_toJson {l : Pairs} {d : Nat} (h : (Tree.map l).Good d) (hd : d ≤ 11) (indent : Int) (isBatch : Bool) :
    fromJson plain (toJson indent isBatch (Tree.map l).tokens) = .ok ((Tree.map l).tokens.map (viaJson plain)) := by
  unfold fromJson
  rw [saxRun_strip, toJson_strip h, sax_tree _ d h .value [] (Or.inl rfl)]
  cases d with
  | zero => simp [Tree.Good] at h
  | succ d =>
    rw [Tree.Good] at h
    have h1 := visit_pairs (plain := plain) l d h.2 0 [] [] [] (by simp only [List.length_nil]; omega)
    rw [show behind [] = ⟨.done, []⟩ from rfl, Tree.events]
    simp only
    rw [visitEvents, visitEvent, if_neg (by simp)]
    simp only
    rw [visitEvents_append h1, visitEvents]
    simp only [visitEvent, List.isEmpty_nil, if_true]
    rw [if_neg (by omega)]
    simp [visitEvents, Tree.tokens, viaJson]

end PGM.Serial
