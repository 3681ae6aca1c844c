import Verif.Json.Model

/-!
# Model of the reader of `ristra/io/catalyst/utils/json.hpp`, with the position it counts

`Json.Model` has what is read and which exception is thrown.  Here the lexer takes one byte after the other and
counts bytes, lines and columns as it does in the code; the position is what `parse_error` tells the user.  The
calls to the builder of values are left out; texts of tokens and messages too.
-/

namespace Verif.Json

/-- the state of the lexer, json.hpp:8618-8632: what is left in the input, `position` (json.hpp:90-104), `current` (`none`
is `eof()`), `next_unget` -/
structure Src where
  rest : Bytes
  total : Nat
  col : Nat
  line : Nat
  cur : Option Nat
  again : Bool

/-- `get`, json.hpp:8378-8405.  (`size_t` does not overflow: the input is not that long.) -/
def Src.get (r : Src) : Src :=
  let r := { r with total := r.total + 1, col := r.col + 1 }
  let r :=
    if r.again then { r with again := false }
    else
      match r.rest with
      | [] => { r with cur := none }
      | c :: s => { r with cur := some c, rest := s }
  if r.cur = some 0x0A then { r with line := r.line + 1, col := 0 } else r

/-- `unget`, json.hpp:8415-8439 -/
def Src.unget (r : Src) : Src :=
  let r := { r with again := true, total := r.total - 1 }
  if r.col = 0 then { r with line := r.line - 1 } else { r with col := r.col - 1 }

/-- a part of the lexer -/
abbrev Sc (α : Type) := Src → α × Src

/-- a part that reads nothing -/
def Sc.pure (a : α) : Sc α := fun r => (a, r)

/-- one part after the other -/
def Sc.bind (x : Sc α) (f : α → Sc β) : Sc β := fun r => f (x r).1 (x r).2

/-- `get`, json.hpp:8378-8405, with its result -/
def getc : Sc (Option Nat) := fun r => (r.get.cur, r.get)

/-- the loop of `get_codepoint`, json.hpp:7287-7308 -/
def placeCodepoint : List Nat → Nat → Sc (Option Nat)
  | [], cp => Sc.pure (some cp)
  | f :: fs, cp => getc.bind fun
    | none => Sc.pure none
    | some c =>
      if 0x30 ≤ c ∧ c ≤ 0x39 then placeCodepoint fs (cp + ((c - 0x30) <<< f))
      else if 0x41 ≤ c ∧ c ≤ 0x46 then placeCodepoint fs (cp + ((c - 0x37) <<< f))
      else if 0x61 ≤ c ∧ c ≤ 0x66 then placeCodepoint fs (cp + ((c - 0x57) <<< f))
      else Sc.pure none

/-- `next_byte_in_range`, json.hpp:7329-7350 -/
def placeRange : List (Nat × Nat) → Sc (Option Bytes)
  | [] => Sc.pure (some [])
  | (lo, hi) :: rs => getc.bind fun
    | none => Sc.pure none
    | some c =>
      if lo ≤ c ∧ c ≤ hi then (placeRange rs).bind fun o => Sc.pure (o.map (c :: ·))
      else Sc.pure none

/-- the second half of a pair of surrogates, json.hpp:7446-7476 -/
def placeLow (cp1 : Nat) : Sc (Option Bytes) :=
  getc.bind fun c =>
    if c = some 0x5C then
      getc.bind fun c =>
        if c = some 0x75 then
          (placeCodepoint [12, 8, 4, 0] 0).bind fun
            | none => Sc.pure none
            | some cp2 =>
              if 0xDC00 ≤ cp2 ∧ cp2 ≤ 0xDFFF then Sc.pure (some (encode ((cp1 <<< 10) + cp2 - 0x35FDC00)))
              else Sc.pure none
        else Sc.pure none
    else Sc.pure none

/-- the escape `\u`, json.hpp:7431-7523 -/
def placeUnicode : Sc (Option Bytes) :=
  (placeCodepoint [12, 8, 4, 0] 0).bind fun
    | none => Sc.pure none
    | some cp1 =>
      if 0xD800 ≤ cp1 ∧ cp1 ≤ 0xDBFF then placeLow cp1
      else if 0xDC00 ≤ cp1 ∧ cp1 ≤ 0xDFFF then Sc.pure none
      else Sc.pure (some (encode cp1))

/-- the character after a backslash, json.hpp:7393-7529 -/
def placeEscape : Sc (Option Bytes) := getc.bind fun
  | some 0x22 => Sc.pure (some [0x22])
  | some 0x5C => Sc.pure (some [0x5C])
  | some 0x2F => Sc.pure (some [0x2F])
  | some 0x62 => Sc.pure (some [0x08])
  | some 0x66 => Sc.pure (some [0x0C])
  | some 0x6E => Sc.pure (some [0x0A])
  | some 0x72 => Sc.pure (some [0x0D])
  | some 0x74 => Sc.pure (some [0x09])
  | some 0x75 => placeUnicode
  | _ => Sc.pure none

/-- one round of the loop of `scan_string` for a character other than the closing quote, json.hpp:7390-7948 -/
def placeChar (c : Nat) : Sc (Option Bytes) :=
  let multi (rs : List (Nat × Nat)) : Sc (Option Bytes) := (placeRange rs).bind fun o => Sc.pure (o.map (c :: ·))
  if c = 0x5C then placeEscape
  else if c ≤ 0x1F then Sc.pure none
  else if c ≤ 0x7F then Sc.pure (some [c])
  else if 0xC2 ≤ c ∧ c ≤ 0xDF then multi [(0x80, 0xBF)]
  else if c = 0xE0 then multi [(0xA0, 0xBF), (0x80, 0xBF)]
  else if (0xE1 ≤ c ∧ c ≤ 0xEC) ∨ c = 0xEE ∨ c = 0xEF then multi [(0x80, 0xBF), (0x80, 0xBF)]
  else if c = 0xED then multi [(0x80, 0x9F), (0x80, 0xBF)]
  else if c = 0xF0 then multi [(0x90, 0xBF), (0x80, 0xBF), (0x80, 0xBF)]
  else if 0xF1 ≤ c ∧ c ≤ 0xF3 then multi [(0x80, 0xBF), (0x80, 0xBF), (0x80, 0xBF)]
  else if c = 0xF4 then multi [(0x80, 0x8F), (0x80, 0xBF), (0x80, 0xBF)]
  else Sc.pure none

/-- the loop of `scan_string`, json.hpp:7374-7950.  The number of rounds is bounded, here and below. -/
def placeString : Nat → Bytes → Sc (Option Bytes)
  | 0, _ => Sc.pure none
  | n + 1, buf => getc.bind fun
    | none => Sc.pure none
    | some c =>
      if c = 0x22 then Sc.pure (some buf)
      else (placeChar c).bind fun
        | none => Sc.pure none
        | some out => placeString n (buf ++ out)

/-- `scan_number_done`, json.hpp:8283-8286 -/
def placeDone (ty : NumType) (buf : Bytes) : Sc (Option (NumType × Bytes)) := fun r => (some (ty, buf), r.unget)

/-- state `scan_number_any2`, json.hpp:8260-8281 -/
def placeAny2 : Nat → Bytes → Sc (Option (NumType × Bytes))
  | 0, _ => Sc.pure none
  | n + 1, buf => getc.bind fun
    | some c => if isDigit c then placeAny2 n (buf ++ [c]) else placeDone .float buf
    | none => placeDone .float buf

/-- state `scan_number_sign`, json.hpp:8234-8258 -/
def placeSign (n : Nat) (buf : Bytes) : Sc (Option (NumType × Bytes)) := getc.bind fun
  | some c => if isDigit c then placeAny2 n (buf ++ [c]) else Sc.pure none
  | none => Sc.pure none

/-- state `scan_number_exponent`, json.hpp:8199-8232 -/
def placeExponent (n : Nat) (buf : Bytes) : Sc (Option (NumType × Bytes)) := getc.bind fun
  | some c =>
    if c = 0x2B ∨ c = 0x2D then placeSign n (buf ++ [c])
    else if isDigit c then placeAny2 n (buf ++ [c])
    else Sc.pure none
  | none => Sc.pure none

/-- state `scan_number_decimal2`, json.hpp:8169-8197 -/
def placeDecimal2 : Nat → Bytes → Sc (Option (NumType × Bytes))
  | 0, _ => Sc.pure none
  | n + 1, buf => getc.bind fun
    | some c =>
      if isDigit c then placeDecimal2 n (buf ++ [c])
      else if c = 0x65 ∨ c = 0x45 then placeExponent n (buf ++ [c])
      else placeDone .float buf
    | none => placeDone .float buf

/-- state `scan_number_decimal1`, json.hpp:8142-8167 -/
def placeDecimal1 (n : Nat) (buf : Bytes) : Sc (Option (NumType × Bytes)) := getc.bind fun
  | some c => if isDigit c then placeDecimal2 n (buf ++ [c]) else Sc.pure none
  | none => Sc.pure none

/-- state `scan_number_any1`, json.hpp:8106-8140 -/
def placeAny1 (ty : NumType) : Nat → Bytes → Sc (Option (NumType × Bytes))
  | 0, _ => Sc.pure none
  | n + 1, buf => getc.bind fun
    | some c =>
      if isDigit c then placeAny1 ty n (buf ++ [c])
      else if c = 0x2E then placeDecimal1 n (buf ++ [c])
      else if c = 0x65 ∨ c = 0x45 then placeExponent n (buf ++ [c])
      else placeDone ty buf
    | none => placeDone ty buf

/-- state `scan_number_zero`, json.hpp:8085-8104 -/
def placeZero (ty : NumType) (n : Nat) (buf : Bytes) : Sc (Option (NumType × Bytes)) := getc.bind fun
  | some c =>
    if c = 0x2E then placeDecimal1 n (buf ++ [c])
    else if c = 0x65 ∨ c = 0x45 then placeExponent n (buf ++ [c])
    else placeDone ty buf
  | none => placeDone ty buf

/-- state `scan_number_minus`, json.hpp:8053-8083 -/
def placeMinus (n : Nat) (buf : Bytes) : Sc (Option (NumType × Bytes)) := getc.bind fun
  | some c =>
    if c = 0x30 then placeZero .integer n (buf ++ [c])
    else if 0x31 ≤ c ∧ c ≤ 0x39 then placeAny1 .integer n (buf ++ [c])
    else Sc.pure none
  | none => Sc.pure none

/-- state `init` of `scan_number`, json.hpp:8019-8051 -/
def placeNumber (n : Nat) (c : Nat) : Sc (Option (NumType × Bytes)) :=
  if c = 0x2D then placeMinus n [c]
  else if c = 0x30 then placeZero .unsigned n [c]
  else placeAny1 .unsigned n [c]

/-- `scan_literal`, json.hpp:8345-8358 -/
def placeLiteral (tok : Token F) : Bytes → Sc (Token F)
  | [] => Sc.pure tok
  | l :: ls => getc.bind fun c => if c = some l then placeLiteral tok ls else Sc.pure .error

/-- white space, and the first character that is none, json.hpp:8551-8556 -/
def placeSpace : Nat → Sc (Option Nat)
  | 0 => Sc.pure none
  | n + 1 => getc.bind fun
    | some c => if isSpace c then placeSpace n else Sc.pure (some c)
    | none => Sc.pure none

/-- the `switch` of `scan`, json.hpp:8558-8615 -/
def placeSwitch (fl : Floats F) (n : Nat) : Option Nat → Sc (Token F)
  | none => Sc.pure .eof
  | some c =>
    if c = 0x5B then Sc.pure .beginArray
    else if c = 0x5D then Sc.pure .endArray
    else if c = 0x7B then Sc.pure .beginObject
    else if c = 0x7D then Sc.pure .endObject
    else if c = 0x3A then Sc.pure .nameSeparator
    else if c = 0x2C then Sc.pure .valueSeparator
    else if c = 0x74 then placeLiteral .litTrue [0x72, 0x75, 0x65]
    else if c = 0x66 then placeLiteral .litFalse [0x61, 0x6C, 0x73, 0x65]
    else if c = 0x6E then placeLiteral .litNull [0x75, 0x6C, 0x6C]
    else if c = 0x22 then
      (placeString n []).bind fun
        | some buf => Sc.pure (.str buf)
        | none => Sc.pure .error
    else if c = 0x2D ∨ isDigit c then
      (placeNumber n c).bind fun
        | some (ty, buf) => Sc.pure (numDone fl ty buf)
        | none => Sc.pure .error
    else if c = 0x00 then Sc.pure .eof
    else Sc.pure .error

/-- `scan` after the byte order mark, json.hpp:8550-8616 -/
def placeToken (fl : Floats F) (n : Nat) : Sc (Token F) := (placeSpace n).bind fun c => placeSwitch fl n c

/-- the first call of `scan`, json.hpp:8541-8616, with `skip_bom`, json.hpp:8527-8539 -/
def placeFirst (fl : Floats F) (n : Nat) : Sc (Token F) := fun r =>
  if (getc r).1 = some 0xEF then
    (getc.bind fun c =>
      if c = some 0xBB then
        getc.bind fun c => if c = some 0xBF then placeToken fl n else Sc.pure .error
      else Sc.pure .error) (getc r).2
  else placeToken fl n (getc r).2.unget

/-- what one round of the loop of `sax_parse_internal` ends in -/
inductive Turn (F : Type) where
  | next (tok : Token F) (states : List Bool) (skip : Bool)
  | done
  | fail (e : ParseError)

/-- the part of the loop after a value has been parsed, json.hpp:9005-9101 -/
def placeStates (fl : Floats F) (n : Nat) : List Bool → Sc (Turn F)
  | [] => Sc.pure .done
  | true :: st => (placeToken fl n).bind fun
    | .valueSeparator => (placeToken fl n).bind fun t => Sc.pure (.next t (true :: st) false)
    | .endArray => Sc.pure (.next .endArray st true)
    | _ => Sc.pure (.fail .syntaxError)
  | false :: st => (placeToken fl n).bind fun
    | .valueSeparator => (placeToken fl n).bind fun
      | .str _ => (placeToken fl n).bind fun
        | .nameSeparator => (placeToken fl n).bind fun t => Sc.pure (.next t (false :: st) false)
        | _ => Sc.pure (.fail .syntaxError)
      | _ => Sc.pure (.fail .syntaxError)
    | .endObject => Sc.pure (.next .endObject st true)
    | _ => Sc.pure (.fail .syntaxError)

/-- one round of the loop of `sax_parse_internal`, json.hpp:8831-9102 -/
def placeStep (fl : Floats F) (n : Nat) (tok : Token F) (states : List Bool) (skip : Bool) : Sc (Turn F) :=
  if skip then placeStates fl n states
  else
    match tok with
    | .beginObject => (placeToken fl n).bind fun
      | .endObject => placeStates fl n states
      | .str _ => (placeToken fl n).bind fun
        | .nameSeparator => (placeToken fl n).bind fun t => Sc.pure (.next t (false :: states) false)
        | _ => Sc.pure (.fail .syntaxError)
      | _ => Sc.pure (.fail .syntaxError)
    | .beginArray => (placeToken fl n).bind fun
      | .endArray => placeStates fl n states
      | t => Sc.pure (.next t (true :: states) false)
    | .float x => if fl.finite x then placeStates fl n states else Sc.pure (.fail .numberOverflow)
    | .litFalse | .litNull | .litTrue | .int _ | .str _ | .uint _ => placeStates fl n states
    | _ => Sc.pure (.fail .syntaxError)

/-- how reading ends: it has not ended yet; all is read; with an error -/
inductive Verdict where
  | running
  | good
  | bad (e : ParseError)
deriving DecidableEq

/-- at most `k` rounds of the loop of `sax_parse_internal`, json.hpp:8831-9102, and the end of `parser::parse`, 8772-8778, strict -/
def placeRun (fl : Floats F) (n : Nat) : Nat → Token F → List Bool → Bool → Sc Verdict
  | 0, _, _, _ => Sc.pure .running
  | k + 1, tok, states, skip => (placeStep fl n tok states skip).bind fun
    | .next tok states skip => placeRun fl n k tok states skip
    | .done => (placeToken fl n).bind fun
      | .eof => Sc.pure .good
      | _ => Sc.pure (.bad .syntaxError)
    | .fail e => Sc.pure (.bad e)

/-- the lexer before the first byte, json.hpp:7200-7204, 8618-8632 -/
def Src.start (s : Bytes) : Src := ⟨s, 0, 0, 0, none, false⟩

/-- `parser::parse` without callback, json.hpp:8715-8722, 8765-8786, strict: how it ends, and the lexer then -/
def placed (fl : Floats F) (s : Bytes) : Verdict × Src :=
  ((placeFirst fl (s.length + 1)).bind fun t => placeRun fl (s.length + 1) (2 * s.length + 2) t [] false) (Src.start s)

/-- the position told by an exception: `parse_error::byte`, json.hpp:1974, and line and column in the message, 1948-1952, 1978-1982 -/
structure Position where
  byte : Nat
  line : Nat
  column : Nat
deriving DecidableEq

/-- the error of `basic_json::parse`, json.hpp:20746-20753, and where it is said to be.  (The text of `out_of_range.406` has no
position; `json_sax::parse_error`, 4432-4436, is told it.) -/
def errorAt (fl : Floats F) (s : Bytes) : Option (ParseError × Position) :=
  match placed fl s with
  | (.bad e, r) => some (e, ⟨r.total, r.line + 1, r.col⟩)
  | _ => none

end Verif.Json
