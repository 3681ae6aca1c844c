import Verif.Common.Outcome

/-!
# Model of the JSON reader of `ristra/io/catalyst/utils/json.hpp`

The lexer, the parser and the builder of values that `getCatalystScripts` uses to read its input
file.  A byte is a natural number, a text a list of bytes; the conversions between texts and
floating-point numbers (`strtod`, `std::isfinite`, the shortest-digits writer) are parameters.  Error
messages and positions are left out, and so are the values of type `discarded`, which only a
callback or a reader without exceptions makes.  The decimal point of the locale, which the lexer
writes into the text it hands to `strtod` and `strtod` expects, is the point.
-/

namespace Verif.Json

/-- a text, or the content of a string: bytes -/
abbrev Bytes := List Nat

/-- `basic_json`, json.hpp:14870-16330, with the default template arguments: `std::vector`, `std::map`,
`std::string`, `bool`, `int64_t`, `uint64_t`, `double`.  A map is the list of its entries in the order of
the keys. -/
inductive Json (F : Type) where
  | null
  | bool (b : Bool)
  | int (i : Int)
  | uint (n : Nat)
  | float (x : F)
  | str (s : Bytes)
  | arr (xs : List (Json F))
  | obj (ms : List (Bytes × Json F))

/-- the library functions on floating-point numbers: `strtod` (json.hpp:7959-7962), `std::isfinite`
(8913, 14432), `to_chars` (13710-13753; see `Json.GrisuModel`) -/
structure Floats (F : Type) where
  toFloat : Bytes → F
  finite : F → Bool
  shortest : F → Bytes

/-- the tokens, json.hpp:7170-7190; `uninitialized` and `literal_or_value` are never read -/
inductive Token (F : Type) where
  | litTrue | litFalse | litNull
  | str (s : Bytes)
  | uint (n : Nat)
  | int (i : Int)
  | float (x : F)
  | beginArray | beginObject | endArray | endObject
  | nameSeparator | valueSeparator
  | error
  | eof

/-! ## The lexer -/

/-- `get_codepoint`, json.hpp:7281-7312: the loop over the factors -/
def codepointLoop : List Nat → Nat → Bytes → Option (Nat × Bytes)
  | [], cp, s => some (cp, s)
  | _ :: _, _, [] => none
  | f :: fs, cp, c :: s =>
    if 0x30 ≤ c ∧ c ≤ 0x39 then codepointLoop fs (cp + ((c - 0x30) <<< f)) s
    else if 0x41 ≤ c ∧ c ≤ 0x46 then codepointLoop fs (cp + ((c - 0x37) <<< f)) s
    else if 0x61 ≤ c ∧ c ≤ 0x66 then codepointLoop fs (cp + ((c - 0x57) <<< f)) s
    else none

/-- `get_codepoint`, json.hpp:7281-7312; `none` is the result -1 -/
def getCodepoint (s : Bytes) : Option (Nat × Bytes) := codepointLoop [12, 8, 4, 0] 0 s

/-- `next_byte_in_range`, json.hpp:7329-7350: what is added after the current byte -/
def nextByteInRange : List (Nat × Nat) → Bytes → Option (Bytes × Bytes)
  | [], s => some ([], s)
  | _ :: _, [] => none
  | (lo, hi) :: rs, c :: s =>
    if lo ≤ c ∧ c ≤ hi then
      match nextByteInRange rs s with
      | some (out, s') => some (c :: out, s')
      | none => none
    else none

/-- the translation of a code point into bytes, json.hpp:7494-7520 -/
def encode (cp : Nat) : Bytes :=
  if cp < 0x80 then [cp]
  else if cp ≤ 0x7FF then [0xC0 ||| (cp >>> 6), 0x80 ||| (cp &&& 0x3F)]
  else if cp ≤ 0xFFFF then
    [0xE0 ||| (cp >>> 12), 0x80 ||| ((cp >>> 6) &&& 0x3F), 0x80 ||| (cp &&& 0x3F)]
  else
    [0xF0 ||| (cp >>> 18), 0x80 ||| ((cp >>> 12) &&& 0x3F), 0x80 ||| ((cp >>> 6) &&& 0x3F),
      0x80 ||| (cp &&& 0x3F)]

/-- the escape `\u`, json.hpp:7431-7523: what is added, and the rest -/
def scanUnicode (s : Bytes) : Option (Bytes × Bytes) :=
  match getCodepoint s with
  | none => none
  | some (cp1, s) =>
    if 0xD800 ≤ cp1 ∧ cp1 ≤ 0xDBFF then
      match s with
      | 0x5C :: 0x75 :: s =>
        match getCodepoint s with
        | none => none
        | some (cp2, s) =>
          if 0xDC00 ≤ cp2 ∧ cp2 ≤ 0xDFFF then some (encode ((cp1 <<< 10) + cp2 - 0x35FDC00), s)
          else none
      | _ => none
    else if 0xDC00 ≤ cp1 ∧ cp1 ≤ 0xDFFF then none
    else some (encode cp1, s)

/-- the character after a backslash, json.hpp:7393-7529 -/
def scanEscape : Bytes → Option (Bytes × Bytes)
  | 0x22 :: s => some ([0x22], s)
  | 0x5C :: s => some ([0x5C], s)
  | 0x2F :: s => some ([0x2F], s)
  | 0x62 :: s => some ([0x08], s)
  | 0x66 :: s => some ([0x0C], s)
  | 0x6E :: s => some ([0x0A], s)
  | 0x72 :: s => some ([0x0D], s)
  | 0x74 :: s => some ([0x09], s)
  | 0x75 :: s => scanUnicode s
  | _ => none

/-- one round of the loop of `scan_string` for a character other than the closing quote,
json.hpp:7390-7948: what is added to the buffer, and the rest -/
def scanChar (c : Nat) (s : Bytes) : Option (Bytes × Bytes) :=
  let multi (rs : List (Nat × Nat)) : Option (Bytes × Bytes) :=
    match nextByteInRange rs s with
    | some (out, s') => some (c :: out, s')
    | none => none
  if c = 0x5C then scanEscape s
  else if c ≤ 0x1F then none
  else if c ≤ 0x7F then some ([c], s)
  else if 0xC2 ≤ c ∧ c ≤ 0xDF then multi [(0x80, 0xBF)]
  else if c = 0xE0 then multi [(0xA0, 0xBF), (0x80, 0xBF)]
  else if (0xE1 ≤ c ∧ c ≤ 0xEC) ∨ c = 0xEE ∨ c = 0xEF then multi [(0x80, 0xBF), (0x80, 0xBF)]
  else if c = 0xED then multi [(0x80, 0x9F), (0x80, 0xBF)]
  else if c = 0xF0 then multi [(0x90, 0xBF), (0x80, 0xBF), (0x80, 0xBF)]
  else if 0xF1 ≤ c ∧ c ≤ 0xF3 then multi [(0x80, 0xBF), (0x80, 0xBF), (0x80, 0xBF)]
  else if c = 0xF4 then multi [(0x80, 0x8F), (0x80, 0xBF), (0x80, 0xBF)]
  else none

/-- the loop of `scan_string`, json.hpp:7374-7950, after the opening quote.  The number of rounds is
bounded by the length of the text, which every round shortens. -/
def scanStringLoop : Nat → Bytes → Bytes → Option (Bytes × Bytes)
  | 0, _, _ => none
  | _ + 1, _, [] => none
  | n + 1, buf, c :: s =>
    if c = 0x22 then some (buf, s)
    else
      match scanChar c s with
      | some (out, s') => scanStringLoop n (buf ++ out) s'
      | none => none

/-- `scan_string`, json.hpp:7366-7950 -/
def scanString (s : Bytes) : Option (Bytes × Bytes) := scanStringLoop (s.length + 1) [] s

/-- `number_type`, json.hpp:8017 -/
inductive NumType where
  | unsigned | integer | float
deriving DecidableEq

def isDigit (c : Nat) : Bool := 0x30 ≤ c ∧ c ≤ 0x39

/-- state `scan_number_any2`, json.hpp:8260-8281 -/
def numAny2 : Bytes → Bytes → Option (NumType × Bytes × Bytes)
  | buf, c :: s => if isDigit c then numAny2 (buf ++ [c]) s else some (.float, buf, c :: s)
  | buf, [] => some (.float, buf, [])

/-- state `scan_number_sign`, json.hpp:8234-8258 -/
def numSign : Bytes → Bytes → Option (NumType × Bytes × Bytes)
  | buf, c :: s => if isDigit c then numAny2 (buf ++ [c]) s else none
  | _, [] => none

/-- state `scan_number_exponent`, json.hpp:8199-8232; the type becomes float here -/
def numExponent : Bytes → Bytes → Option (NumType × Bytes × Bytes)
  | buf, c :: s =>
    if c = 0x2B ∨ c = 0x2D then numSign (buf ++ [c]) s
    else if isDigit c then numAny2 (buf ++ [c]) s
    else none
  | _, [] => none

/-- state `scan_number_decimal2`, json.hpp:8169-8197 -/
def numDecimal2 : Bytes → Bytes → Option (NumType × Bytes × Bytes)
  | buf, c :: s =>
    if isDigit c then numDecimal2 (buf ++ [c]) s
    else if c = 0x65 ∨ c = 0x45 then numExponent (buf ++ [c]) s
    else some (.float, buf, c :: s)
  | buf, [] => some (.float, buf, [])

/-- state `scan_number_decimal1`, json.hpp:8142-8167; the type becomes float here -/
def numDecimal1 : Bytes → Bytes → Option (NumType × Bytes × Bytes)
  | buf, c :: s => if isDigit c then numDecimal2 (buf ++ [c]) s else none
  | _, [] => none

/-- state `scan_number_any1`, json.hpp:8106-8140 -/
def numAny1 (ty : NumType) : Bytes → Bytes → Option (NumType × Bytes × Bytes)
  | buf, c :: s =>
    if isDigit c then numAny1 ty (buf ++ [c]) s
    else if c = 0x2E then numDecimal1 (buf ++ [c]) s
    else if c = 0x65 ∨ c = 0x45 then numExponent (buf ++ [c]) s
    else some (ty, buf, c :: s)
  | buf, [] => some (ty, buf, [])

/-- state `scan_number_zero`, json.hpp:8085-8104 -/
def numZero (ty : NumType) : Bytes → Bytes → Option (NumType × Bytes × Bytes)
  | buf, c :: s =>
    if c = 0x2E then numDecimal1 (buf ++ [c]) s
    else if c = 0x65 ∨ c = 0x45 then numExponent (buf ++ [c]) s
    else some (ty, buf, c :: s)
  | buf, [] => some (ty, buf, [])

/-- state `scan_number_minus`, json.hpp:8053-8083; the type becomes integer here -/
def numMinus : Bytes → Bytes → Option (NumType × Bytes × Bytes)
  | buf, c :: s =>
    if c = 0x30 then numZero .integer (buf ++ [c]) s
    else if 0x31 ≤ c ∧ c ≤ 0x39 then numAny1 .integer (buf ++ [c]) s
    else none
  | _, [] => none

/-- state `init` of `scan_number`, json.hpp:8019-8051 -/
def numInit (c : Nat) (s : Bytes) : Option (NumType × Bytes × Bytes) :=
  if c = 0x2D then numMinus [c] s
  else if c = 0x30 then numZero .unsigned [c] s
  else numAny1 .unsigned [c] s

/-- the value `strtoull` and `strtoll` find in a text of decimal digits -/
def digitsValue (ds : Bytes) : Nat := ds.foldl (fun n d => n * 10 + (d - 0x30)) 0

/-- `scan_number_done`, json.hpp:8283-8336: `strtoull` and `strtoll` report a value out of their range, and
the number becomes a floating-point number then -/
def numDone (fl : Floats F) (ty : NumType) (buf : Bytes) : Token F :=
  match ty with
  | .unsigned =>
    if digitsValue buf < 2 ^ 64 then .uint (digitsValue buf) else .float (fl.toFloat buf)
  | .integer =>
    if digitsValue buf.tail ≤ 2 ^ 63 then .int (-(digitsValue buf.tail : Int))
    else .float (fl.toFloat buf)
  | .float => .float (fl.toFloat buf)

/-- `scan_literal`, json.hpp:8345-8358: the rest of the literal -/
def scanLiteral (tok : Token F) : Bytes → Bytes → Token F × Bytes
  | [], s => (tok, s)
  | _ :: _, [] => (.error, [])
  | l :: ls, c :: s => if c = l then scanLiteral tok ls s else (.error, s)

/-- `' '`, `'\t'`, `'\n'`, `'\r'`, json.hpp:8551 -/
def isSpace (c : Nat) : Bool := c = 0x20 ∨ c = 0x09 ∨ c = 0x0A ∨ c = 0x0D

/-- what the lexer still has to deliver.  `over` says that the first of these bytes has been taken
from the input already (`next_unget`, json.hpp:8395-8404, 8427-8446). -/
structure Lex where
  pend : Bytes
  over : Bool

/-- `scan` after the byte order mark, json.hpp:8541-8616 -/
def scanToken (fl : Floats F) : Bytes → Token F × Lex
  | [] => (.eof, ⟨[], false⟩)
  | c :: s =>
    if isSpace c then scanToken fl s
    else if c = 0x5B then (.beginArray, ⟨s, false⟩)
    else if c = 0x5D then (.endArray, ⟨s, false⟩)
    else if c = 0x7B then (.beginObject, ⟨s, false⟩)
    else if c = 0x7D then (.endObject, ⟨s, false⟩)
    else if c = 0x3A then (.nameSeparator, ⟨s, false⟩)
    else if c = 0x2C then (.valueSeparator, ⟨s, false⟩)
    else if c = 0x74 then
      let r := scanLiteral .litTrue [0x72, 0x75, 0x65] s; (r.1, ⟨r.2, false⟩)
    else if c = 0x66 then
      let r := scanLiteral .litFalse [0x61, 0x6C, 0x73, 0x65] s; (r.1, ⟨r.2, false⟩)
    else if c = 0x6E then
      let r := scanLiteral .litNull [0x75, 0x6C, 0x6C] s; (r.1, ⟨r.2, false⟩)
    else if c = 0x22 then
      match scanString s with
      | some (buf, s') => (.str buf, ⟨s', false⟩)
      | none => (.error, ⟨[], false⟩)
    else if c = 0x2D ∨ isDigit c then
      match numInit c s with
      | some (ty, buf, s') => (numDone fl ty buf, ⟨s', true⟩)
      | none => (.error, ⟨[], false⟩)
    else if c = 0x00 then (.eof, ⟨s, false⟩)
    else (.error, ⟨s, false⟩)

/-- the first call of `scan`, json.hpp:8541-8548, with `skip_bom`, json.hpp:8527-8539.  (`chars_read_total` is 0
at this call only: every call of `scan` takes a byte, or the end, that it does not put back.) -/
def scanFirst (fl : Floats F) (s : Bytes) : Token F × Lex :=
  match s with
  | 0xEF :: s' =>
    match s' with
    | 0xBB :: 0xBF :: s'' => scanToken fl s''
    | _ => (.error, ⟨[], false⟩)
  | s => scanToken fl s

/-! ## The parser -/

/-- the calls of the SAX interface, json.hpp:4230-4330 -/
inductive Event (F : Type) where
  | null | bool (b : Bool) | int (i : Int) | uint (n : Nat) | float (x : F) | str (s : Bytes)
  | startObject | key (k : Bytes) | endObject | startArray | endArray

/-- the state of `sax_parse_internal`, json.hpp:8823-8829, with the token read last (9143), and the calls made so
far.  `states` has the innermost level first; `true` is an array.  All methods of the builders
return `true`, so that they have no influence on the parser. -/
structure Machine (F : Type) where
  tok : Token F
  lex : Lex
  states : List Bool
  skip : Bool
  evs : List (Event F)

/-- `parse_error.101` or `out_of_range.406` -/
inductive ParseError where
  | syntaxError | numberOverflow
deriving DecidableEq

/-- what one round of the loop ends in -/
inductive Step (F : Type) where
  | next (m : Machine F)
  | done (lex : Lex) (evs : List (Event F))
  | fail (e : ParseError)

/-- `get_token`, json.hpp:9105-9108 -/
def getToken (fl : Floats F) (m : Machine F) : Machine F :=
  { m with tok := (scanToken fl m.lex.pend).1, lex := (scanToken fl m.lex.pend).2 }

def Machine.emit (m : Machine F) (e : Event F) : Machine F := { m with evs := m.evs ++ [e] }

/-- the part of the loop after a value has been parsed, json.hpp:9005-9101 -/
def evalStates (fl : Floats F) (m : Machine F) : Step F :=
  match m.states with
  | [] => .done m.lex m.evs
  | true :: st =>
    let m := getToken fl m
    match m.tok with
    | .valueSeparator => .next (getToken fl m)
    | .endArray => .next { m.emit .endArray with states := st, skip := true }
    | _ => .fail .syntaxError
  | false :: st =>
    let m := getToken fl m
    match m.tok with
    | .valueSeparator =>
      let m := getToken fl m
      match m.tok with
      | .str k =>
        let m := getToken fl (m.emit (.key k))
        match m.tok with
        | .nameSeparator => .next (getToken fl m)
        | _ => .fail .syntaxError
      | _ => .fail .syntaxError
    | .endObject => .next { m.emit .endObject with states := st, skip := true }
    | _ => .fail .syntaxError

/-- one round of the loop of `sax_parse_internal`, json.hpp:8831-9102 -/
def step (fl : Floats F) (m : Machine F) : Step F :=
  if m.skip then evalStates fl { m with skip := false }
  else
    match m.tok with
    | .beginObject =>
      let m := getToken fl (m.emit .startObject)
      match m.tok with
      | .endObject => evalStates fl (m.emit .endObject)
      | .str k =>
        let m := getToken fl (m.emit (.key k))
        match m.tok with
        | .nameSeparator => .next (getToken fl { m with states := false :: m.states })
        | _ => .fail .syntaxError
      | _ => .fail .syntaxError
    | .beginArray =>
      let m := getToken fl (m.emit .startArray)
      match m.tok with
      | .endArray => evalStates fl (m.emit .endArray)
      | _ => .next { m with states := true :: m.states }
    | .float x =>
      if fl.finite x then evalStates fl (m.emit (.float x)) else .fail .numberOverflow
    | .litFalse => evalStates fl (m.emit (.bool false))
    | .litNull => evalStates fl (m.emit .null)
    | .litTrue => evalStates fl (m.emit (.bool true))
    | .int i => evalStates fl (m.emit (.int i))
    | .str s => evalStates fl (m.emit (.str s))
    | .uint n => evalStates fl (m.emit (.uint n))
    | _ => .fail .syntaxError

/-- how the loop ends -/
inductive RunResult (F : Type) where
  | done (lex : Lex) (evs : List (Event F))
  | fail (e : ParseError)
  | running

/-- at most `n` rounds of the loop of `sax_parse_internal`, json.hpp:8831-9102 -/
def run (fl : Floats F) : Nat → Machine F → RunResult F
  | 0, _ => .running
  | n + 1, m =>
    match step fl m with
    | .next m' => run fl n m'
    | .done l evs => .done l evs
    | .fail e => .fail e

/-! ## The values -/

/-- `std::less<std::string>`, the order of the keys: bytes are compared as unsigned numbers -/
def keyLt : Bytes → Bytes → Bool
  | [], [] => false
  | [], _ :: _ => true
  | _ :: _, [] => false
  | a :: as, b :: bs => if a < b then true else if b < a then false else keyLt as bs

/-- assignment to `object[k]`: replaces the value at `k`, or makes a new entry -/
def setKey (k : Bytes) (v : Json F) : List (Bytes × Json F) → List (Bytes × Json F)
  | [] => [(k, v)]
  | (k', v') :: ms =>
    if keyLt k k' then (k, v) :: (k', v') :: ms
    else if keyLt k' k then (k', v') :: setKey k v ms
    else (k, v) :: ms

/-- `std::map::find` -/
def lookup (k : Bytes) : List (Bytes × Json F) → Option (Json F)
  | [] => none
  | (k', v) :: ms => if keyLt k k' ∨ keyLt k' k then lookup k ms else some v

/-- the place of a value within the root: what a pointer to it stands for -/
inductive Sel where
  | idx (i : Nat)
  | key (k : Bytes)

abbrev Path := List Sel

/-- the value a pointer points to -/
def getAt : Path → Json F → Option (Json F)
  | [], v => some v
  | .idx i :: p, .arr xs => match xs[i]? with
    | some v => getAt p v
    | none => none
  | .key k :: p, .obj ms => match lookup k ms with
    | some v => getAt p v
    | none => none
  | _ :: _, _ => none

/-- assignment through a pointer -/
def setAt : Path → Json F → Json F → Option (Json F)
  | [], w, _ => some w
  | .idx i :: p, w, .arr xs => match xs[i]? with
    | some v => match setAt p w v with
      | some v' => some (.arr (xs.set i v'))
      | none => none
    | none => none
  | .key k :: p, w, .obj ms => match lookup k ms with
    | some v => match setAt p w v with
      | some v' => some (.obj (setKey k v' ms))
      | none => none
    | none => none
  | _ :: _, _, _ => none

/-- `json_sax_dom_parser`, json.hpp:4622-4634; the innermost container first -/
structure Dom (F : Type) where
  root : Json F
  refs : List Path
  element : Option Path

/-- `handle_value`, json.hpp:4598-4620: the builder, and where the value has been put.  A failing
assertion, and a pointer that points nowhere, is `none`. -/
def handleValue (d : Dom F) (v : Json F) : Option (Dom F × Path) :=
  match d.refs with
  | [] => some ({ d with root := v }, [])
  | p :: _ =>
    match getAt p d.root with
    | some (.arr xs) =>
      match setAt p (.arr (xs ++ [v])) d.root with
      | some root => some ({ d with root := root }, p ++ [.idx xs.length])
      | none => none
    | some (.obj _) =>
      match d.element with
      | some q =>
        match setAt q v d.root with
        | some root => some ({ d with root := root }, q)
        | none => none
      | none => none
    | _ => none

/-- the methods of `json_sax_dom_parser`, json.hpp:4479-4558 -/
def Dom.on (d : Dom F) : Event F → Option (Dom F)
  | .null => (handleValue d .null).map (·.1)
  | .bool b => (handleValue d (.bool b)).map (·.1)
  | .int i => (handleValue d (.int i)).map (·.1)
  | .uint n => (handleValue d (.uint n)).map (·.1)
  | .float x => (handleValue d (.float x)).map (·.1)
  | .str s => (handleValue d (.str s)).map (·.1)
  | .startObject =>
    (handleValue d (.obj [])).map fun r => { r.1 with refs := r.2 :: r.1.refs }
  | .startArray =>
    (handleValue d (.arr [])).map fun r => { r.1 with refs := r.2 :: r.1.refs }
  | .endObject | .endArray =>
    match d.refs with
    | [] => none
    | _ :: rs => some { d with refs := rs }
  | .key k =>
    match d.refs with
    | [] => none
    | p :: _ =>
      match getAt p d.root with
      | some (.obj ms) =>
        match lookup k ms with
        | some _ => some { d with element := some (p ++ [.key k]) }
        | none =>
          match setAt p (.obj (setKey k .null ms)) d.root with
          | some root => some { d with root := root, element := some (p ++ [.key k]) }
          | none => none
      | _ => none

/-- the calls of the parser to the builder, in order -/
def Dom.onAll (d : Dom F) : List (Event F) → Option (Dom F)
  | [] => some d
  | e :: es => match d.on e with
    | some d' => d'.onAll es
    | none => none

/-- `parser::parse` without callback, json.hpp:8734-8787, on the value `old`: the value read, and what is
left in the input.  The first token is read in the constructor (8715-8722); the number of rounds of
the loop is bounded, see `C110_terminates`. -/
def parse (fl : Floats F) (strict : Bool) (old : Json F) (s : Bytes) : Outcome (Json F × Bytes) :=
  let t := scanFirst fl s
  match run fl (2 * s.length + 2) ⟨t.1, t.2, [], false, []⟩ with
  | .running => .diverges
  | .fail .syntaxError => .throws "parse_error.101"
  | .fail .numberOverflow => .throws "out_of_range.406"
  | .done l evs =>
    match (⟨old, [], none⟩ : Dom F).onAll evs with
    | none => .ub
    | some d =>
      if strict then
        let u := scanToken fl l.pend
        match u.1 with
        | .eof => .ok (d.root, u.2.pend)
        | _ => .throws "parse_error.101"
      else .ok (d.root, if l.over then l.pend.tail else l.pend)

/-- `basic_json::parse`, json.hpp:20746-20753 -/
def parseAll (fl : Floats F) (s : Bytes) : Outcome (Json F) :=
  match parse fl true .null s with
  | .ok (v, _) => .ok v
  | .assertFail => .assertFail
  | .outOfRange => .outOfRange
  | .throws k => .throws k
  | .ub => .ub
  | .diverges => .diverges

/-- `operator>>`, json.hpp:20945-20949: the value, and the rest of the stream -/
def extract (fl : Floats F) (old : Json F) (s : Bytes) : Outcome (Json F × Bytes) :=
  parse fl false old s

end Verif.Json
