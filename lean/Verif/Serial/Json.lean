import Verif.Serial.Model

/-!
# Serialisation: model of the conversion to JSON and back

`JsonConverter` in `P/auxiliary/serialization/serializer.hpp` lines 78-220, `JsonSAXVisitor` in `P/auxiliary/serialization/deserializer.hpp` lines
68-177.

A JSON text is the list of its lexical pieces. Simplifications: strings are written as they are (line 158 does not escape; the names of the meta data
need no escapes); the text of a float, with 17 digits (line 153), is trusted to be read back as the same number, as an integer if the text has neither
point nor exponent, which is the parameter `plain`. -/

namespace PGM.Serial

/-- The lexical pieces of JSON; `newline n` is a line break and `n` spaces. -/
inductive Piece
  | openArray | closeArray | openMap | closeMap | comma | colon
  | null | bool (b : Bool) | int (n : Int) | float (q : ℚ) | str (s : String)
  | space | newline (n : Nat)
  deriving DecidableEq, Repr

/-- `MapArray`, `serializer.hpp` lines 80-86. -/
structure MapArray where
  size : Nat
  empty : Bool
  begin_ : Bool
  deriving DecidableEq, Repr

/-- The data of `JsonConverter`, lines 94-100. -/
structure Conv where
  indent : Int
  maxLevel : Nat
  out : List Piece
  stack : List MapArray
  deriving DecidableEq, Repr

def Conv.write (c : Conv) (p : Piece) : Conv := { c with out := c.out ++ [p] }

/-- `print_indent`, lines 102-117. -/
def printIndent (c : Conv) : Conv :=
  if c.indent < 0 then c
  else if c.maxLevel < c.stack.length then
    match c.stack with
    | top :: rest => if top.begin_ then { c with stack := { top with begin_ := false } :: rest } else c.write .space
    | [] => c
  else c.write (.newline (c.stack.length * c.indent.toNat))

/-- `start_array` and `start_map`, lines 161-165 and 186-190. -/
def startContainer (c : Conv) (p : Piece) (n : Nat) : Conv := { c.write p with stack := ⟨n, n == 0, true⟩ :: c.stack }

/-- `end_array_item` and `end_map_value`, lines 170-176 and 200-206. -/
def endItem (c : Conv) : Conv :=
  match c.stack with
  | [] => c
  | top :: rest =>
    let c' := { c with stack := { top with size := top.size - 1 } :: rest }
    if 0 < top.size - 1 then c'.write .comma else c'

/-- `end_map_key` with `print_key_val_sep`, lines 119-124 and 195-199. -/
def endKey (c : Conv) : Conv := if c.indent < 0 then c.write .colon else (c.write .colon).write .space

/-- `end_array` and `end_map`, lines 177-185 and 207-215. -/
def endContainer (c : Conv) (p : Piece) : Conv :=
  match c.stack with
  | [] => c
  | top :: rest =>
    let c' := { c with stack := rest }
    (if rest.length < c.maxLevel ∧ top.empty = false then printIndent c' else c').write p

/-- The text of an atom, lines 127-160. -/
def text : Token → Piece
  | .nil => .null
  | .bool b => .bool b
  | .int n => .int n
  | .float (.fin q) => .float q
  | .float .inf => .str "inf"
  | .float .ninf => .str "-inf"
  | .str s => .str s
  | .array _ => .null
  | .map _ => .null

/-- The containers that `msgpack::parse` has entered, with the number of items (of the map: of pairs) that are not finished. -/
inductive Frame
  | array (left : Nat)
  | key (left : Nat)
  | value (left : Nat)
  deriving DecidableEq, Repr

/-- The calls of `msgpack::parse` when an object is finished. -/
def finish : List Frame → Conv → List Frame × Conv
  | [], c => ([], c)
  | .array left :: fs, c =>
    if left ≤ 1 then finish fs (endContainer (endItem c) .closeArray) else (.array (left - 1) :: fs, printIndent (endItem c))
  | .key left :: fs, c => (.value left :: fs, endKey c)
  | .value left :: fs, c =>
    if left ≤ 1 then finish fs (endContainer (endItem c) .closeMap) else (.key (left - 1) :: fs, printIndent (endItem c))

/-- The calls of `msgpack::parse` for one token. -/
def visit (fs : List Frame) (c : Conv) : Token → List Frame × Conv
  | .array n =>
    if n = 0 then finish fs (endContainer (startContainer c .openArray 0) .closeArray)
    else (.array n :: fs, printIndent (startContainer c .openArray n))
  | .map n =>
    if n = 0 then finish fs (endContainer (startContainer c .openMap 0) .closeMap)
    else (.key n :: fs, printIndent (startContainer c .openMap n))
  | t => finish fs (c.write (text t))

def drive : List Frame → Conv → List Token → List Frame × Conv
  | fs, c, [] => (fs, c)
  | fs, c, t :: ts => drive (visit fs c t).1 (visit fs c t).2 ts

/-- The text that is made in `get_json`, lines 403-407. -/
def toJson (indent : Int) (isBatch : Bool) (ts : List Token) : List Piece :=
  (drive [] ⟨indent, if isBatch then 4 else 3, [], []⟩ ts).2.out

/-! ## Back -/

/-- The calls of a SAX parser. -/
inductive Event
  | null | bool (b : Bool) | int (n : Int) | float (q : ℚ) | str (s : String) | key (s : String)
  | startObject | endObject | startArray | endArray
  deriving DecidableEq, Repr

/-- What a JSON parser expects next. -/
inductive Mode
  | value | valueOrClose | key | keyOrClose | colon | next | done
  deriving DecidableEq, Repr

/-- The state of a JSON parser: what it expects, and whether the enclosing containers are arrays. -/
structure Sax where
  mode : Mode
  stack : List Bool
  deriving DecidableEq, Repr

/-- Behind a value. -/
def behind (stack : List Bool) : Sax := ⟨if stack.isEmpty then .done else .next, stack⟩

/-- The event of an atom; a float whose text has neither point nor exponent is an integer. -/
def atomEvent (plain : ℚ → Bool) : Piece → Option Event
  | .null => some .null
  | .bool b => some (.bool b)
  | .int n => some (.int n)
  | .float q => some (if plain q then .int q.num else .float q)
  | .str s => some (.str s)
  | _ => none

/-- A JSON parser (the library nlohmann::json): the grammar of JSON. -/
def saxStep (plain : ℚ → Bool) (x : Sax) (p : Piece) : Option (Sax × List Event) :=
  match p with
  | .space => some (x, [])
  | .newline _ => some (x, [])
  | _ =>
    match x.mode with
    | .value | .valueOrClose =>
      match p with
      | .openArray => some (⟨.valueOrClose, true :: x.stack⟩, [.startArray])
      | .openMap => some (⟨.keyOrClose, false :: x.stack⟩, [.startObject])
      | .closeArray =>
        match x.mode, x.stack with
        | .valueOrClose, true :: st => some (behind st, [.endArray])
        | _, _ => none
      | _ => (atomEvent plain p).map fun e => (behind x.stack, [e])
    | .key | .keyOrClose =>
      match p with
      | .str s => some (⟨.colon, x.stack⟩, [.key s])
      | .closeMap =>
        match x.mode, x.stack with
        | .keyOrClose, false :: st => some (behind st, [.endObject])
        | _, _ => none
      | _ => none
    | .colon =>
      match p with
      | .colon => some (⟨.value, x.stack⟩, [])
      | _ => none
    | .next =>
      match p, x.stack with
      | .comma, true :: st => some (⟨.value, true :: st⟩, [])
      | .comma, false :: st => some (⟨.key, false :: st⟩, [])
      | .closeArray, true :: st => some (behind st, [.endArray])
      | .closeMap, false :: st => some (behind st, [.endObject])
      | _, _ => none
    | .done => none

def saxRun (plain : ℚ → Bool) : Sax → List Piece → Option (Sax × List Event)
  | x, [] => some (x, [])
  | x, p :: ps =>
    match saxStep plain x p with
    | none => none
    | some (x', es) =>
      match saxRun plain x' ps with
      | none => none
      | some (x'', es') => some (x'', es ++ es')

/-- `JsonSAXVisitor`: `data_buffers` (the number of items and the tokens of the containers that are open) and `root_buffer`, lines 175-176. -/
structure Visitor where
  stack : List (Nat × List Token)
  root : List Token
  deriving DecidableEq, Repr

/-- `pack_data`, lines 91-95; without an open container the root is not a map. -/
def packData_ (v : Visitor) (t : List Token) : Except Err Visitor :=
  match v.stack with
  | [] => .error .serialization
  | (n, ts) :: st => .ok { v with stack := (n + 1, ts ++ t) :: st }

/-- `string`, lines 106-114. -/
def stringToken (s : String) : Token :=
  if s = "inf" ∨ s = "+inf" then .float .inf else if s = "-inf" then .float .ninf else .str s

/-- The calls of `JsonSAXVisitor`, lines 97-158; `check_depth`, lines 169-173. -/
def visitEvent (v : Visitor) : Event → Except Err Visitor
  | .null => packData_ v [.nil]
  | .bool b => packData_ v [.bool b]
  | .int n => packData_ v [.int n]
  | .float q => packData_ v [.float (.fin q)]
  | .str s => packData_ v [stringToken s]
  | .key s =>
    match v.stack with
    | [] => .error .serialization
    | (n, ts) :: st => .ok { v with stack := (n, ts ++ [.str s]) :: st }
  | .startObject => if 10 < v.stack.length then .error .serialization else .ok { v with stack := (0, []) :: v.stack }
  | .startArray => if 10 < v.stack.length then .error .serialization else .ok { v with stack := (0, []) :: v.stack }
  | .endObject =>
    match v.stack with
    | [] => .error .undefined
    | (n, ts) :: st =>
      if 2 ^ 32 ≤ n then .error .serialization
      else if st.isEmpty then .ok ⟨[], .map n :: ts⟩
      else packData_ { v with stack := st } (.map n :: ts)
  | .endArray =>
    match v.stack with
    | [] => .error .undefined
    | (n, ts) :: st =>
      if 2 ^ 32 ≤ n then .error .serialization else packData_ { v with stack := st } (.array n :: ts)

def visitEvents : Visitor → List Event → Except Err Visitor
  | v, [] => .ok v
  | v, e :: es =>
    match visitEvent v e with
    | .error e => .error e
    | .ok v' => visitEvents v' es

/-- `json_to_msgpack`, `deserializer.hpp` lines 544-549. -/
def fromJson (plain : ℚ → Bool) (ps : List Piece) : Except Err (List Token) :=
  match saxRun plain ⟨.value, []⟩ ps with
  | some (⟨.done, _⟩, es) =>
    match visitEvents ⟨[], []⟩ es with
    | .error e => .error e
    | .ok v => .ok v.root
  | _ => .error .serialization

end PGM.Serial
