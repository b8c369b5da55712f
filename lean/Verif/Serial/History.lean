import Verif.Serial.Json

/-!
# Serialisation: model of the requests to one serialiser

`Serializer` in `P/auxiliary/serialization/serializer.hpp`. The dataset that the serialiser views does not change between the requests. -/

namespace PGM.Serial

/-- `SerializationFormat`. -/
inductive Format
  | json | msgpack
  deriving DecidableEq, Repr

/-- The data that requests change, lines 317-325. `json_indent_` is initialised with −1 in line 324 and nothing assigns it. -/
structure State where
  msgpack : List Token
  compact : Bool
  jsonIndent : Int
  json : List Piece
  deriving DecidableEq, Repr

/-- The initial values, lines 317-325. -/
def State.init : State := ⟨[], false, -1, []⟩

/-- What a request gives: bytes, a text, or an exception. -/
inductive Result
  | bytes (ts : List Token)
  | text (ps : List Piece)
  | error
  deriving DecidableEq, Repr

/-- `serialize`, lines 412-423: what was packed before an exception stays in the buffer. The result says whether nothing was thrown. -/
def State.pack (s : State) (D : Dataset) (compact : Bool) : State × Bool :=
  ({ s with msgpack := ((serialize D compact).takeWhile Option.isSome).filterMap id, compact := compact }, (serialize D compact).all Option.isSome)

/-- `get_msgpack`, lines 394-399. -/
def State.getMsgpack (s : State) (D : Dataset) (compact : Bool) : State × Option (List Token) :=
  if s.msgpack.isEmpty || s.compact != compact then
    ((s.pack D compact).1, if (s.pack D compact).2 then some (s.pack D compact).1.msgpack else none)
  else (s, some s.msgpack)

/-- `get_json`, lines 401-410. -/
def State.getJson (s : State) (D : Dataset) (compact : Bool) (indent : Int) : State × Result :=
  if s.json.isEmpty || s.compact != compact || s.jsonIndent != indent then
    match s.getMsgpack D compact with
    | (s', none) => (s', .error)
    | (s', some ts) => ({ s' with json := toJson indent D.isBatch ts }, .text (toJson indent D.isBatch ts))
  else (s, .text s.json)

/-- The requests of the API: `PGM_serializer_get_to_binary_buffer` and `PGM_serializer_get_to_zero_terminated_string`. -/
inductive Request
  | binary (compact : Bool)
  | string (compact : Bool) (indent : Int)
  deriving DecidableEq, Repr

/-- `get_binary_buffer` and `get_string`, lines 281-307. -/
def request (D : Dataset) (f : Format) (s : State) : Request → State × Result
  | .binary c =>
    match f with
    | .json => s.getJson D c (-1)
    | .msgpack =>
      match s.getMsgpack D c with
      | (s', some ts) => (s', .bytes ts)
      | (s', none) => (s', .error)
  | .string c i =>
    match f with
    | .json => s.getJson D c i
    | .msgpack => (s, .error)

/-- The state after a history of requests. -/
def after (D : Dataset) (f : Format) : List Request → State
  | [] => State.init
  | r :: l => (request D f (after D f l) r).1

/-- What a request gives after a history; the history begins with the most recent request. -/
def reply (D : Dataset) (f : Format) (history : List Request) (r : Request) : Result := (request D f (after D f history) r).2

end PGM.Serial
