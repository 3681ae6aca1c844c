import Verif.Json.WriterModel

/-!
# Model of the JSON writer of `ristra/io/catalyst/utils/json.hpp`, with what has been written when it throws

`Json.WriterModel` has the text of a value.  Here every function writes to a stream, piece by piece, and the
pieces are there also if an exception is thrown later.
-/

namespace Verif.Json

/-- a part of the writer: what it writes to the stream, and how it ends -/
abbrev Wr (α : Type) := Bytes × Outcome α

/-- one part after the other, unless the first has thrown -/
def Wr.bind (x : Wr α) (f : α → Wr β) : Wr β :=
  match x.2 with
  | .ok a => (x.1 ++ (f a).1, (f a).2)
  | .assertFail => (x.1, .assertFail)
  | .outOfRange => (x.1, .outOfRange)
  | .throws k => (x.1, .throws k)
  | .ub => (x.1, .ub)
  | .diverges => (x.1, .diverges)

/-- `write_character`, `write_characters` of an output stream, json.hpp:11243-11252.  (The stream is one that does not fail
and does not throw.) -/
def put (t : Bytes) : Wr Unit := (t, .ok ())

/-- the writing of a text that is known only if it can be made -/
def putText (t : Outcome Bytes) : Wr Unit :=
  match t with
  | .ok t => (t, .ok ())
  | .assertFail => ([], .assertFail)
  | .outOfRange => ([], .outOfRange)
  | .throws k => ([], .throws k)
  | .ub => ([], .ub)
  | .diverges => ([], .diverges)

/-- the loop of `dump_escaped`, json.hpp:14058-14240, and what follows it, 14243-14294: what is in `string_buffer`
when an exception is thrown has not been written -/
def spillLoop (h : Handler) (ascii : Bool) : Nat → Esc → Bytes → Wr Unit
  | 0, e, _ => (e.out, .diverges)
  | _ + 1, e, [] =>
    if e.state = 0 then (e.out ++ e.buf, .ok ())
    else
      match h with
      | .strict => (e.out, .throws "type_error.316")
      | .ignore => (e.out ++ e.buf.take e.last, .ok ())
      | .replace => (e.out ++ e.buf.take e.last ++ replacement ascii, .ok ())
  | n + 1, e, b :: s =>
    match escByte h ascii e b with
    | .next e => spillLoop h ascii n e s
    | .again e => spillLoop h ascii n e (b :: s)
    | .throws => (e.out, .throws "type_error.316")
    | .ub => (e.out, .ub)

/-- `dump_escaped`, json.hpp:14048-14294 -/
def spillEscaped (h : Handler) (ascii : Bool) (s : Bytes) : Wr Unit :=
  spillLoop h ascii (2 * s.length + 1) ⟨0, 0, [], 0, 0, []⟩ s

mutual
/-- `serializer::dump`, json.hpp:13838-14031; the result is the string of indentation afterwards -/
def spillV (fl : Floats F) (o : Opt) (cur : Nat) (ind : Bytes) : Json F → Wr Bytes
  | .obj ms =>
    if ms.isEmpty then (put [0x7B, 0x7D]).bind fun _ => ([], .ok ind)
    else if o.pretty then
      (put [0x7B, 0x0A]).bind fun _ =>
      (spillM fl o (cur + o.step) (growIndent ind (cur + o.step)) ms).bind fun ind =>
      (put [0x0A]).bind fun _ =>
      (putText (writeIndent ind cur)).bind fun _ =>
      (put [0x7D]).bind fun _ => ([], .ok ind)
    else
      (put [0x7B]).bind fun _ =>
      (spillM fl o cur ind ms).bind fun ind =>
      (put [0x7D]).bind fun _ => ([], .ok ind)
  | .arr xs =>
    if xs.isEmpty then (put [0x5B, 0x5D]).bind fun _ => ([], .ok ind)
    else if o.pretty then
      (put [0x5B, 0x0A]).bind fun _ =>
      (spillL fl o (cur + o.step) (growIndent ind (cur + o.step)) xs).bind fun ind =>
      (put [0x0A]).bind fun _ =>
      (putText (writeIndent ind cur)).bind fun _ =>
      (put [0x5D]).bind fun _ => ([], .ok ind)
    else
      (put [0x5B]).bind fun _ =>
      (spillL fl o cur ind xs).bind fun ind =>
      (put [0x5D]).bind fun _ => ([], .ok ind)
  | .str s =>
    (put [0x22]).bind fun _ =>
    (spillEscaped o.handler o.ascii s).bind fun _ =>
    (put [0x22]).bind fun _ => ([], .ok ind)
  | .bool true => (put [0x74, 0x72, 0x75, 0x65]).bind fun _ => ([], .ok ind)
  | .bool false => (put [0x66, 0x61, 0x6C, 0x73, 0x65]).bind fun _ => ([], .ok ind)
  | .int i => (putText (dumpInteger i)).bind fun _ => ([], .ok ind)
  | .uint n => (putText (dumpInteger n)).bind fun _ => ([], .ok ind)
  | .float x => (put (dumpFloat fl x)).bind fun _ => ([], .ok ind)
  | .null => (put [0x6E, 0x75, 0x6C, 0x6C]).bind fun _ => ([], .ok ind)
/-- the elements of an array, json.hpp:13928-13940, 13950-13960 -/
def spillL (fl : Floats F) (o : Opt) (cur : Nat) (ind : Bytes) : List (Json F) → Wr Bytes
  | [] => ([], .ok ind)
  | v :: vs =>
    (if o.pretty then putText (writeIndent ind cur) else put []).bind fun _ =>
    (spillV fl o cur ind v).bind fun ind =>
    if vs.isEmpty then ([], .ok ind)
    else
      (put (if o.pretty then [0x2C, 0x0A] else [0x2C])).bind fun _ => spillL fl o cur ind vs
/-- the members of an object, json.hpp:13863-13884, 13894-13913 -/
def spillM (fl : Floats F) (o : Opt) (cur : Nat) (ind : Bytes) : List (Bytes × Json F) → Wr Bytes
  | [] => ([], .ok ind)
  | (k, v) :: ms =>
    (if o.pretty then putText (writeIndent ind cur) else put []).bind fun _ =>
    (put [0x22]).bind fun _ =>
    (spillEscaped o.handler o.ascii k).bind fun _ =>
    (put (if o.pretty then [0x22, 0x3A, 0x20] else [0x22, 0x3A])).bind fun _ =>
    (spillV fl o cur ind v).bind fun ind =>
    if ms.isEmpty then ([], .ok ind)
    else
      (put (if o.pretty then [0x2C, 0x0A] else [0x2C])).bind fun _ => spillM fl o cur ind ms
end

/-- `o << j`, json.hpp:20643-20656, with the width and the fill character of the stream: what is in the stream
afterwards, and how it ends -/
def insertInto (fl : Floats F) (width : Int) (fill : Nat) (v : Json F) : Wr Unit :=
  let pretty := decide (0 < width)
  let indentation := if pretty then width else 0
  (spillV fl ⟨pretty, false, indentation.toNat, .strict⟩ 0 (List.replicate 512 fill) v).bind fun _ => ([], .ok ())

end Verif.Json
