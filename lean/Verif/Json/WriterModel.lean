import Verif.Json.Model

/-!
# Model of the JSON writer of `ristra/io/catalyst/utils/json.hpp`

`serializer` and `basic_json::dump`.  What has been written when an exception is thrown is left out,
and so is the text of the exceptions.
-/

namespace Verif.Json

/-- `error_handler_t`, json.hpp:13780-13785 -/
inductive Handler where
  | strict | replace | ignore
deriving DecidableEq

/-! ## Strings -/

/-- the table `utf8d`, json.hpp:14507-14525 -/
def utf8d : List Nat :=
  List.replicate 128 0 ++ List.replicate 16 1 ++ List.replicate 16 9 ++ List.replicate 32 7 ++
  [8, 8] ++ List.replicate 30 2 ++
  [0xA, 0x3, 0x3, 0x3, 0x3, 0x3, 0x3, 0x3, 0x3, 0x3, 0x3, 0x3, 0x3, 0x4, 0x3, 0x3] ++
  [0xB, 0x6, 0x6, 0x6, 0x5, 0x8, 0x8, 0x8, 0x8, 0x8, 0x8, 0x8, 0x8, 0x8, 0x8, 0x8] ++
  [0x0, 0x1, 0x2, 0x3, 0x5, 0x8, 0x7, 0x1, 0x1, 0x1, 0x4, 0x6, 0x1, 0x1, 0x1, 0x1] ++
  [1, 1, 1, 1, 1, 1, 1, 1, 1, 1, 1, 1, 1, 1, 1, 1, 1, 0, 1, 1, 1, 1, 1, 0, 1, 0, 1, 1, 1, 1, 1, 1] ++
  [1, 2, 1, 1, 1, 1, 1, 2, 1, 2, 1, 1, 1, 1, 1, 1, 1, 1, 1, 1, 1, 1, 1, 2, 1, 1, 1, 1, 1, 1, 1, 1] ++
  [1, 2, 1, 1, 1, 1, 1, 1, 1, 2, 1, 1, 1, 1, 1, 1, 1, 1, 1, 1, 1, 1, 1, 3, 1, 3, 1, 1, 1, 1, 1, 1] ++
  [1, 3, 1, 1, 1, 1, 1, 3, 1, 3, 1, 1, 1, 1, 1, 1, 1, 3, 1, 1, 1, 1, 1, 1, 1, 1, 1, 1, 1, 1, 1, 1]

/-- `decode`, json.hpp:14505-14537: the new state and code point.  (A code point has at most 21 bits when it is
accepted, and the state is left as soon as it could not be: no bit of the 32 is lost.) -/
def decode (state codep byte : Nat) : Nat × Nat :=
  let type := utf8d.getD byte 0
  (utf8d.getD (256 + state * 16 + type) 0,
    if state ≠ 0 then (byte &&& 0x3F) ||| (codep <<< 6) else (0xFF >>> type) &&& byte)

/-- the local variables of `dump_escaped`, json.hpp:14050-14056, with `string_buffer` up to `bytes`, and what has
been written -/
structure Esc where
  state : Nat
  codep : Nat
  buf : Bytes
  last : Nat
  undumped : Nat
  out : Bytes

/-- a hexadecimal digit of `%x` -/
def hexDigit (v : Nat) : Nat := if v < 10 then 0x30 + v else 0x57 + v

/-- `"\\u%04x"` of a `uint16_t` -/
def hexEscape (n : Nat) : Bytes :=
  let v := n % 65536
  [0x5C, 0x75, hexDigit (v / 4096), hexDigit (v / 256 % 16), hexDigit (v / 16 % 16), hexDigit (v % 16)]

/-- what is put into the buffer for an accepted code point, json.hpp:14066-14140, and how many bytes are
touched behind it (the terminating zero of `snprintf`) -/
def escText (ascii : Bool) (codep byte : Nat) : Bytes × Nat :=
  if codep = 0x08 then ([0x5C, 0x62], 0)
  else if codep = 0x09 then ([0x5C, 0x74], 0)
  else if codep = 0x0A then ([0x5C, 0x6E], 0)
  else if codep = 0x0C then ([0x5C, 0x66], 0)
  else if codep = 0x0D then ([0x5C, 0x72], 0)
  else if codep = 0x22 then ([0x5C, 0x22], 0)
  else if codep = 0x5C then ([0x5C, 0x5C], 0)
  else if codep ≤ 0x1F ∨ (ascii ∧ 0x7F ≤ codep) then
    if codep ≤ 0xFFFF then (hexEscape codep, 1)
    else (hexEscape (0xD7C0 + (codep >>> 10)) ++ hexEscape (0xDC00 + (codep &&& 0x3FF)), 1)
  else ([byte], 0)

/-- writing to `string_buffer`, an array of 512 characters; `none` is a write outside it -/
def Esc.put (e : Esc) (t : Bytes) (more : Nat) : Option Esc :=
  if e.buf.length + t.length + more ≤ 512 then some { e with buf := e.buf ++ t } else none

/-- json.hpp:14145-14149, 14209-14213 -/
def Esc.flush (e : Esc) : Esc :=
  if 512 - e.buf.length < 13 then { e with out := e.out ++ e.buf, buf := [] } else e

/-- the replacement character, json.hpp:14188-14204 -/
def replacement (ascii : Bool) : Bytes :=
  if ascii then [0x5C, 0x75, 0x66, 0x66, 0x66, 0x64] else [0xEF, 0xBF, 0xBD]

/-- what a round of the loop of `dump_escaped` ends in; `again` is `--i` -/
inductive EscStep where
  | next (e : Esc)
  | again (e : Esc)
  | throws
  | ub

/-- one round of the loop of `dump_escaped`, json.hpp:14058-14240 -/
def escByte (h : Handler) (ascii : Bool) (e : Esc) (byte : Nat) : EscStep :=
  let d := decode e.state e.codep byte
  let e := { e with state := d.1, codep := d.2 }
  if d.1 = 0 then
    match e.put (escText ascii d.2 byte).1 (escText ascii d.2 byte).2 with
    | none => .ub
    | some e =>
      let e := e.flush
      .next { e with last := e.buf.length, undumped := 0 }
  else if d.1 = 1 then
    match h with
    | .strict => .throws
    | .ignore =>
      let e' := { e with buf := e.buf.take e.last, undumped := 0, state := 0 }
      if 0 < e.undumped then .again e' else .next e'
    | .replace =>
      match ({ e with buf := e.buf.take e.last }).put (replacement ascii) 0 with
      | none => .ub
      | some e1 =>
        let e1 := e1.flush
        let e' := { e1 with last := e1.buf.length, undumped := 0, state := 0 }
        if 0 < e.undumped then .again e' else .next e'
  else
    if ascii then .next { e with undumped := e.undumped + 1 }
    else
      match e.put [byte] 0 with
      | none => .ub
      | some e => .next { e with undumped := e.undumped + 1 }

/-- the loop of `dump_escaped`, json.hpp:14058-14240, and what follows it, 14243-14294.  The number of rounds is
bounded; see `C115_outcomes` for its sufficing. -/
def escLoop (h : Handler) (ascii : Bool) : Nat → Esc → Bytes → Outcome Bytes
  | 0, _, _ => .diverges
  | _ + 1, e, [] =>
    if e.state = 0 then .ok (e.out ++ e.buf)
    else
      match h with
      | .strict => .throws "type_error.316"
      | .ignore => .ok (e.out ++ e.buf.take e.last)
      | .replace => .ok (e.out ++ e.buf.take e.last ++ replacement ascii)
  | n + 1, e, b :: s =>
    match escByte h ascii e b with
    | .next e => escLoop h ascii n e s
    | .again e => escLoop h ascii n e (b :: s)
    | .throws => .throws "type_error.316"
    | .ub => .ub

/-- `dump_escaped`, json.hpp:14048-14294 (`codepoint` has no value at first, and is not read before it is
set) -/
def dumpEscaped (h : Handler) (ascii : Bool) (s : Bytes) : Outcome Bytes :=
  escLoop h ascii (2 * s.length + 1) ⟨0, 0, [], 0, 0, []⟩ s

/-! ## Integers -/

/-- `count_digits`, json.hpp:14303-14327; at most `fuel` rounds (six suffice for 64 bits) -/
def countDigits : Nat → Nat → Nat → Option Nat
  | 0, _, _ => none
  | fuel + 1, n, x =>
    if x < 10 then some n
    else if x < 100 then some (n + 1)
    else if x < 1000 then some (n + 2)
    else if x < 10000 then some (n + 3)
    else countDigits fuel (n + 4) (x / 10000)

/-- `*(--buffer_ptr) = c`; `none` in front of the buffer -/
def backward (buf : Bytes) (ptr c : Nat) : Option (Bytes × Nat) :=
  match ptr with
  | 0 => none
  | p + 1 => if p < buf.length then some (buf.set p c, p) else none

/-- the digits, json.hpp:14388-14407.  `digits_to_99[i]` is the two digits of `i`. -/
def fillDigits : Nat → Nat → Bytes → Nat → Option Bytes
  | 0, _, _, _ => none
  | fuel + 1, x, buf, ptr =>
    if 100 ≤ x then
      (backward buf ptr (0x30 + x % 100 % 10)).bind fun (buf, ptr) =>
      (backward buf ptr (0x30 + x % 100 / 10)).bind fun (buf, ptr) =>
      fillDigits fuel (x / 100) buf ptr
    else if 10 ≤ x then
      (backward buf ptr (0x30 + x % 10)).bind fun (buf, ptr) =>
      (backward buf ptr (0x30 + x / 10)).bind fun (buf, _) => some buf
    else (backward buf ptr (0x30 + x)).bind fun (buf, _) => some buf

/-- `dump_integer`, json.hpp:14340-14412, for a signed or unsigned integer of 64 bits, with `remove_sign`,
14581-14585.  `number_buffer` has 64 characters; what it held before does not matter, for every
character written out has been set. -/
def dumpInteger (x : Int) : Outcome Bytes :=
  if x = 0 then .ok [0x30]
  else
    let buf := List.replicate 64 0
    let neg := ¬ 0 ≤ x
    let buf := if neg then buf.set 0 0x2D else buf
    let abs := if neg then (-(x + 1)).toNat + 1 else x.toNat
    match countDigits 64 1 abs with
    | none => .diverges
    | some n =>
      let n := if neg then 1 + n else n
      if n < 63 then
        match fillDigits 64 abs buf n with
        | some buf => .ok (buf.take n)
        | none => .ub
      else .assertFail

/-! ## Values -/

/-- the parameters of `serializer::dump` that do not change -/
structure Opt where
  pretty : Bool
  ascii : Bool
  step : Nat
  handler : Handler

/-- `o->write_characters(indent_string.c_str(), n)`: the terminating zero of the string may be read, what is
behind it may not -/
def writeIndent (ind : Bytes) (n : Nat) : Outcome Bytes :=
  if n ≤ ind.length then .ok (ind.take n)
  else if n = ind.length + 1 then .ok (ind ++ [0])
  else .ub

/-- json.hpp:13858-13861, 13923-13926: `resize(2 * size, ' ')` if the string is too short -/
def growIndent (ind : Bytes) (new : Nat) : Bytes :=
  if ind.length < new then ind ++ List.replicate ind.length 0x20 else ind

/-- a string between quotes -/
def dumpString (o : Opt) (s : Bytes) : Outcome Bytes :=
  (dumpEscaped o.handler o.ascii s).bind fun t => .ok (0x22 :: (t ++ [0x22]))

/-- `dump_float`, json.hpp:14422-14450 -/
def dumpFloat (fl : Floats F) (x : F) : Bytes :=
  if fl.finite x then fl.shortest x else [0x6E, 0x75, 0x6C, 0x6C]

mutual
/-- `serializer::dump`, json.hpp:13838-14031: what is written, and the string of indentation afterwards.
(The indentation is an `unsigned int`: a depth of more than 2^32 divided by the step is outside the
model.) -/
def dumpV (fl : Floats F) (o : Opt) (cur : Nat) (ind : Bytes) : Json F → Outcome (Bytes × Bytes)
  | .obj ms =>
    if ms.isEmpty then .ok ([0x7B, 0x7D], ind)
    else if o.pretty then
      (dumpM fl o (cur + o.step) (growIndent ind (cur + o.step)) ms).bind fun (t, ind) =>
      (writeIndent ind cur).bind fun c =>
      .ok ([0x7B, 0x0A] ++ t ++ 0x0A :: (c ++ [0x7D]), ind)
    else
      (dumpM fl o cur ind ms).bind fun (t, ind) => .ok (0x7B :: (t ++ [0x7D]), ind)
  | .arr xs =>
    if xs.isEmpty then .ok ([0x5B, 0x5D], ind)
    else if o.pretty then
      (dumpL fl o (cur + o.step) (growIndent ind (cur + o.step)) xs).bind fun (t, ind) =>
      (writeIndent ind cur).bind fun c =>
      .ok ([0x5B, 0x0A] ++ t ++ 0x0A :: (c ++ [0x5D]), ind)
    else
      (dumpL fl o cur ind xs).bind fun (t, ind) => .ok (0x5B :: (t ++ [0x5D]), ind)
  | .str s => (dumpString o s).bind fun t => .ok (t, ind)
  | .bool true => .ok ([0x74, 0x72, 0x75, 0x65], ind)
  | .bool false => .ok ([0x66, 0x61, 0x6C, 0x73, 0x65], ind)
  | .int i => (dumpInteger i).bind fun t => .ok (t, ind)
  | .uint n => (dumpInteger n).bind fun t => .ok (t, ind)
  | .float x => .ok (dumpFloat fl x, ind)
  | .null => .ok ([0x6E, 0x75, 0x6C, 0x6C], ind)
/-- the elements of an array, json.hpp:13928-13940, 13950-13960, with `cur` the indentation of its elements -/
def dumpL (fl : Floats F) (o : Opt) (cur : Nat) (ind : Bytes) :
    List (Json F) → Outcome (Bytes × Bytes)
  | [] => .ok ([], ind)
  | v :: vs =>
    (if o.pretty then writeIndent ind cur else .ok []).bind fun c =>
    (dumpV fl o cur ind v).bind fun (t, ind) =>
    if vs.isEmpty then .ok (c ++ t, ind)
    else
      (dumpL fl o cur ind vs).bind fun (ts, ind) =>
      .ok (c ++ t ++ (if o.pretty then [0x2C, 0x0A] else [0x2C]) ++ ts, ind)
/-- the members of an object, json.hpp:13863-13884, 13894-13913, with `cur` the indentation of its members -/
def dumpM (fl : Floats F) (o : Opt) (cur : Nat) (ind : Bytes) :
    List (Bytes × Json F) → Outcome (Bytes × Bytes)
  | [] => .ok ([], ind)
  | (k, v) :: ms =>
    (if o.pretty then writeIndent ind cur else .ok []).bind fun c =>
    (dumpString o k).bind fun q =>
    (dumpV fl o cur ind v).bind fun (t, ind) =>
    let m := c ++ q ++ (if o.pretty then [0x3A, 0x20] else [0x3A]) ++ t
    if ms.isEmpty then .ok (m, ind)
    else
      (dumpM fl o cur ind ms).bind fun (ts, ind) =>
      .ok (m ++ (if o.pretty then [0x2C, 0x0A] else [0x2C]) ++ ts, ind)
end

/-- `basic_json::dump(indent, indent_char, ensure_ascii, error_handler)`, json.hpp:16561-16579, and the constructor of
the serializer, 13803-13814: the string of indentation begins with 512 characters -/
def dump (fl : Floats F) (indent : Int) (ic : Nat) (ascii : Bool) (h : Handler) (v : Json F) :
    Outcome Bytes :=
  (dumpV fl ⟨0 ≤ indent, ascii, indent.toNat, h⟩ 0 (List.replicate 512 ic) v).bind fun (t, _) => .ok t

/-- `o << j`, json.hpp:20643-20656, with the width and the fill character of the stream: what is written.  (The
width is 0 afterwards.) -/
def insertStream (fl : Floats F) (width : Int) (fill : Nat) (v : Json F) : Outcome Bytes :=
  let pretty := decide (0 < width)
  let indentation := if pretty then width else 0
  (dumpV fl ⟨pretty, false, indentation.toNat, .strict⟩ 0 (List.replicate 512 fill) v).bind
    fun (t, _) => .ok t

end Verif.Json
