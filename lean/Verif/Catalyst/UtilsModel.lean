import Mathlib.Logic.Function.Basic
import Mathlib.Algebra.Order.Field.Rat
import Verif.Common.Outcome
import Verif.Strings.Model

/-!
# Model of `ristra/io/catalyst/utils/catalystUtils.hpp` and `insituTimer.hpp`

Strings are lists of characters, files lists of bytes.  What the JSON parser and the image
decoder make of a file is a parameter; console output is left out.
-/

namespace Verif.Catalyst
open Verif.Strings

/-! ## catalystUtils.hpp -/

/-- `getCatalystScripts`, catalystUtils.hpp:14-45.  `json` is the array stored under "catalyst-scripts" in
the input file, if there is one.  `substr(0, npos)` is the whole string. -/
def getCatalystScripts (inputFilename : Str) (json : Option (List Str)) : List Str :=
  if inputFilename ≠ [] then
    let catalystPath := match rfind '/' inputFilename with
      | some i => substr inputFilename 0 i
      | none => inputFilename
    match json with
    | some xs => xs.foldl (fun acc x => acc ++ [catalystPath ++ "/".toList ++ x]) []
    | none => []
  else []

/-- `replaceInString`, catalystUtils.hpp:48-54: `string::replace(pos, len, str)` throws for `pos > size()`,
in particular for `npos` -/
def replaceInString (original stringToReplace replacement : Str) : Outcome Str :=
  match find original stringToReplace 0 with
  | some found =>
    .ok (original.take found ++ replacement ++ original.drop (found + stringToReplace.length))
  | none => .outOfRange

/-- what `stbi_load` delivers: the pixel array has `width*height*channels` bytes (the decoder
refuses images for which this product does not fit an `int`) -/
structure Image where
  width : Nat
  height : Nat
  channels : Nat
  data : List UInt8

/-- the counting loop, catalystUtils.hpp:109-115 -/
def countDiff (a b : List UInt8) (numPixels : Nat) : Nat :=
  (List.range numPixels).foldl (fun n i => if a[i]? ≠ b[i]? then n + 1 else n) 0

/-- `imageCompare`, catalystUtils.hpp:70-128; `fl` rounds to `float` (the conversions of the two counters
and the quotient), `fl x = x` being exact arithmetic; an image without bytes cannot be loaded -/
def imageCompare (fl : ℚ → ℚ) (imgA imgB : Option Image) : Bool :=
  match imgA, imgB with
  | some A, some B =>
    if A.width ≠ B.width then false
    else if A.height ≠ B.height then false
    else if A.channels ≠ B.channels then false
    else
      let numPixels := A.width * A.height * A.channels
      let numDiff := countDiff A.data B.data numPixels
      if fl (fl numDiff / fl numPixels) > 2 / 100 then false else true
  | _, _ => false

/-- `std::equal(first1, last1, first2)` on two stream buffers; past its end the second yields
end-of-file, which equals no byte -/
def equalStreams : List UInt8 → List UInt8 → Bool
  | [], _ => true
  | _ :: _, [] => false
  | a :: as, b :: bs => if a = b then equalStreams as bs else false

/-- `compareFiles`, catalystUtils.hpp:132-166; `none` for a file that cannot be opened -/
def compareFiles (f1 f2 : Option (List UInt8)) : Bool :=
  match f1, f2 with
  | some a, some b => if a.length ≠ b.length then false else equalStreams a b
  | _, _ => false

/-! ## insituTimer.hpp -/

/-- the two maps, insituTimer.hpp:12-13; times and durations in ticks of the clock -/
structure Timer where
  timers : Str → Option Int
  durations : Str → Option Int

/-- `InsituTimer()`, insituTimer.hpp:16 -/
def Timer.new : Timer := ⟨fun _ => none, fun _ => none⟩

/-- `start`, insituTimer.hpp:31-47, at clock time `now` -/
def Timer.start (t : Timer) (name : Str) (now : Int) : Timer :=
  match t.timers name with
  | none => { t with timers := Function.update t.timers name (some now) }
  | some _ => ⟨Function.update t.timers name (some now), Function.update t.durations name none⟩

/-- `InsituTimer(name)`, insituTimer.hpp:17 -/
def Timer.ofName (name : Str) (now : Int) : Timer := Timer.new.start name now

/-- `stop`, insituTimer.hpp:50-66: `map::insert` keeps an entry that is already there -/
def Timer.stop (t : Timer) (name : Str) (now : Int) : Timer × Int :=
  match t.timers name with
  | some t0 =>
    ({ t with durations := match t.durations name with
        | some _ => t.durations
        | none => Function.update t.durations name (some (now - t0)) }, 1)
  | none => (t, -1)

/-- `getDuration`, insituTimer.hpp:69-80 -/
def Timer.getDuration (t : Timer) (name : Str) : Int :=
  match t.durations name with
  | some d => d
  | none => -1

/-- what a program does with one timer object -/
inductive Event where
  | start (name : Str) (now : Int)
  | stop (name : Str) (now : Int)

/-- one call of `start` or `stop`, insituTimer.hpp:31-66 -/
def Timer.step (t : Timer) : Event → Timer
  | .start n now => t.start n now
  | .stop n now => (t.stop n now).1

/-- a sequence of such calls -/
def Timer.run (t : Timer) (es : List Event) : Timer := es.foldl Timer.step t

end Verif.Catalyst
