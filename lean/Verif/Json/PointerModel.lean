import Verif.Json.Model

/-!
# Model of `json_pointer` of `ristra/io/catalyst/utils/json.hpp`

A pointer is the list of its reference tokens.  A function that gives a reference to a value within
another is modelled twice: as the value read through the reference, and as the whole value after what
is done through the reference.  What a failing call has already created is left out, and so is running
out of memory.  The message of an exception is left out; its kind has the number of the exception.
-/

namespace Verif.Json

/-! ## The text of a pointer -/

/-- is `f` at the beginning of the text: the text after it.  For `std::string::find`, json.hpp:10930-10933 -/
def dropPrefix : Bytes → Bytes → Option Bytes
  | [], s => some s
  | _ :: _, [] => none
  | a :: f, b :: s => if a = b then dropPrefix f s else none

theorem dropPrefix_length : ∀ {f s r : Bytes}, dropPrefix f s = some r → r.length + f.length = s.length
  | [], s, r, h => by simp [dropPrefix] at h; simp [h]
  | _ :: _, [], r, h => by simp [dropPrefix] at h
  | a :: f, b :: s, r, h => by
    rw [dropPrefix] at h
    by_cases hab : a = b
    · rw [if_pos hab] at h
      have := dropPrefix_length h
      simp
      omega
    · rw [if_neg hab] at h; simp at h

/-- `replace_substring`, json.hpp:10926-10935: the search goes on after what has been put in.  The
assertion that `f` is not empty holds in all calls: an empty `f` changes nothing here. -/
def replaceAll (f t : Bytes) (s : Bytes) : Bytes :=
  match s with
  | [] => []
  | c :: s' =>
    match h : dropPrefix f (c :: s') with
    | some r => if hf : f = [] then c :: s' else t ++ replaceAll f t r
    | none => c :: replaceAll f t s'
termination_by s.length
decreasing_by
  · have := dropPrefix_length h
    have : 0 < f.length := List.length_pos_iff.mpr hf
    simp at *
    omega
  · simp

/-- `escape`, json.hpp:10938-10943 -/
def escape (s : Bytes) : Bytes := replaceAll [0x2f] [0x7e, 0x31] (replaceAll [0x7e] [0x7e, 0x30] s)

/-- `unescape`, json.hpp:10946-10950 -/
def unescape (s : Bytes) : Bytes := replaceAll [0x7e, 0x30] [0x7e] (replaceAll [0x7e, 0x31] [0x2f] s)

/-- `to_string`, json.hpp:10139-10147 -/
def ptrToString (ts : List Bytes) : Bytes := ts.foldl (fun a b => a ++ [0x2f] ++ escape b) []

/-- the loop over the tildes of a token, json.hpp:10890-10903: is each followed by `0` or `1`? -/
def tildesOk : Bytes → Bool
  | [] => true
  | c :: s =>
    if c = 0x7e then
      match s with
      | [] => false
      | d :: _ => (d == 0x30 || d == 0x31) && tildesOk s
    else tildesOk s

/-- the loop of `split`, json.hpp:10872-10908; `tok` is the part of the token before the text left -/
def splitLoop (tok : Bytes) : Bytes → Outcome (List Bytes)
  | [] => if tildesOk tok then .ok [unescape tok] else .throws "parse_error.108"
  | c :: s =>
    if c = 0x2f then
      if tildesOk tok then
        match splitLoop [] s with
        | .ok ts => .ok (unescape tok :: ts)
        | e => e
      else .throws "parse_error.108"
    else splitLoop (tok ++ [c]) s

/-- `split`, that is the constructor from a text, json.hpp:10121-10123, 10851-10911 -/
def split (s : Bytes) : Outcome (List Bytes) :=
  match s with
  | [] => .ok []
  | c :: s => if c = 0x2f then splitLoop [] s else .throws "parse_error.107"

/-- `std::to_string` of a `std::size_t`, as in json.hpp:10219, 10977, 22438 -/
def toStr (x : Nat) : Bytes := if x < 10 then [0x30 + x] else toStr (x / 10) ++ [0x30 + x % 10]
termination_by x
decreasing_by omega

/-! ## Array indices -/

/-- `std::isspace` in the C locale, for `std::stoi` (json.hpp:10408) -/
def cSpace (c : Nat) : Bool := c == 0x20 || (0x09 ≤ c && c ≤ 0x0d)

/-- the number written by digits, as `strtol` computes it (json.hpp:10408) -/
def decVal (ds : Bytes) : Nat := ds.foldl (fun a d => a * 10 + (d - 0x30)) 0

/-- what `array_index` does: a number, or one of `std::invalid_argument`, `std::out_of_range` and
`out_of_range.404` -/
inductive Idx where
  | num (i : Int)
  | invalid
  | range
  | partly
deriving DecidableEq, Repr

/-- `array_index`, json.hpp:10405-10417, with `std::stoi` as the library defines it by `strtol`: white
space, a sign, digits; the value must be in the range of an `int` (of 32 bits), and the whole text read -/
def arrayIndex (s : Bytes) : Idx :=
  let s1 := s.dropWhile cSpace
  let neg := s1.head? == some 0x2d
  let s2 := if neg || s1.head? == some 0x2b then s1.tail else s1
  let ds := s2.takeWhile isDigit
  let v : Int := if neg then -(decVal ds : Int) else decVal ds
  if ds.isEmpty then .invalid
  else if v < -2 ^ 31 ∨ 2 ^ 31 ≤ v then .range
  else if (s2.dropWhile isDigit).isEmpty then .num v
  else .partly

/-- `static_cast<size_type>` of an `int`: modulo 2^64 -/
def sizeT (i : Int) : Nat := (i % 2 ^ 64).toNat

/-- `static_cast<size_type>(array_index(…))` where `std::invalid_argument` is caught, json.hpp:10475-10482,
10568-10576, 10628-10635, 10693-10701, 10752-10759, 10810-10825 -/
def tokenIndex (t : Bytes) : Outcome Nat :=
  match arrayIndex t with
  | .num i => .ok (sizeT i)
  | .invalid => .throws "parse_error.109"
  | .range => .outOfRange
  | .partly => .throws "out_of_range.404"

/-- `static_cast<size_type>(array_index(…))` where nothing is caught, json.hpp:22190-22191, 22234 -/
def bareIndex (t : Bytes) : Outcome Nat :=
  match arrayIndex t with
  | .num i => .ok (sizeT i)
  | .invalid => .throws "invalid_argument"
  | .range => .outOfRange
  | .partly => .throws "out_of_range.404"

/-- the test that an array index does not begin with `0`, json.hpp:10553, 10620, 10685, 10744, 10803 -/
def zeroLed (t : Bytes) : Bool := decide (1 < t.length) && t.head? == some 0x30

/-! ## Following a pointer -/

variable {F : Type}

/-- `at`, that is `get_checked`, json.hpp:21986-21989, 10719-10769; the functions `at` for a key and for
an index are 17669-17689 and 17567-17587 -/
def atPtr : List Bytes → Json F → Outcome (Json F)
  | [], v => .ok v
  | t :: ts, .obj ms =>
    match lookup t ms with
    | some v => atPtr ts v
    | none => .throws "out_of_range.403"
  | t :: ts, .arr xs =>
    if t = [0x2d] then .throws "out_of_range.402"
    else if zeroLed t then .throws "parse_error.106"
    else tokenIndex t >>= fun i =>
      match xs[i]? with
      | some v => atPtr ts v
      | none => .throws "out_of_range.401"
  | _ :: _, .null | _ :: _, .bool _ | _ :: _, .int _ | _ :: _, .uint _ | _ :: _, .float _ | _ :: _, .str _ =>
    .throws "out_of_range.404"

/-- `f` done through the reference that `at` gives, json.hpp:21943-21946, 10595-10645; the functions
`at` for a key and for an index are 17618-17638 and 17520-17540 -/
def atPtrUpd (f : Json F → Outcome (Json F)) : List Bytes → Json F → Outcome (Json F)
  | [], v => f v
  | t :: ts, .obj ms =>
    match lookup t ms with
    | some v => atPtrUpd f ts v >>= fun v' => .ok (.obj (setKey t v' ms))
    | none => .throws "out_of_range.403"
  | t :: ts, .arr xs =>
    if t = [0x2d] then .throws "out_of_range.402"
    else if zeroLed t then .throws "parse_error.106"
    else tokenIndex t >>= fun i =>
      match xs[i]? with
      | some v => atPtrUpd f ts v >>= fun v' => .ok (.arr (xs.set i v'))
      | none => .throws "out_of_range.401"
  | _ :: _, .null | _ :: _, .bool _ | _ :: _, .int _ | _ :: _, .uint _ | _ :: _, .float _ | _ :: _, .str _ =>
    .throws "out_of_range.404"

/-- `contains`, json.hpp:18636-18639, 10775-10840 -/
def containsPtr : List Bytes → Json F → Outcome Bool
  | [], _ => .ok true
  | t :: ts, .obj ms =>
    match lookup t ms with
    | some v => containsPtr ts v
    | none => .ok false
  | t :: ts, .arr xs =>
    if t = [0x2d] then .ok false
    else if zeroLed t then .throws "parse_error.106"
    else tokenIndex t >>= fun i =>
      match xs[i]? with
      | some v => containsPtr ts v
      | none => .ok false
  | _ :: _, .null | _ :: _, .bool _ | _ :: _, .int _ | _ :: _, .uint _ | _ :: _, .float _ | _ :: _, .str _ =>
    .ok false

/-- `operator[]` of a constant value, json.hpp:21900-21903, 10660-10711: of an object (17848-17858) it
asserts that the key is there, of an array (17761-17770) it is undefined out of range -/
def constPtr : List Bytes → Json F → Outcome (Json F)
  | [], v => .ok v
  | t :: ts, .obj ms =>
    match lookup t ms with
    | some v => constPtr ts v
    | none => .assertFail
  | t :: ts, .arr xs =>
    if t = [0x2d] then .throws "out_of_range.402"
    else if zeroLed t then .throws "parse_error.106"
    else tokenIndex t >>= fun i =>
      match xs[i]? with
      | some v => constPtr ts v
      | none => .ub
  | _ :: _, .null | _ :: _, .bool _ | _ :: _, .int _ | _ :: _, .uint _ | _ :: _, .float _ | _ :: _, .str _ =>
    .throws "out_of_range.404"

/-- `max_size()` of a vector of values, each of 16 bytes; what the vector of json.hpp:17732 may hold -/
def maxSize : Nat := 2 ^ 59 - 1

/-- `operator[]` of an array, json.hpp:17715-17740: the array filled up; `size_type` has 64 bits -/
def fillTo (i : Nat) (xs : List (Json F)) : Outcome (List (Json F)) :=
  if xs.length ≤ i then
    let cnt := (i - xs.length + 1) % 2 ^ 64
    if maxSize < xs.length + cnt then .throws "length_error"
    else .ok (xs ++ List.replicate cnt .null)
  else .ok xs

/-- what a null becomes before a token is followed, json.hpp:10525-10539 -/
def fromNull (t : Bytes) : Json F → Json F
  | .null => if t.all isDigit || t == [0x2d] then .arr [] else .obj []
  | v => v

/-- `f` done through the reference that `operator[]` gives, json.hpp:21872-21875, 10519-10587 -/
def indexPtrUpd (f : Json F → Outcome (Json F)) : List Bytes → Json F → Outcome (Json F)
  | [], v => f v
  | t :: ts, v =>
    match fromNull t v with
    | .obj ms =>
      indexPtrUpd f ts ((lookup t ms).getD .null) >>= fun v' => .ok (.obj (setKey t v' ms))
    | .arr xs =>
      if zeroLed t then .throws "parse_error.106"
      else (if t = [0x2d] then .ok xs.length else tokenIndex t) >>= fun i =>
        fillTo i xs >>= fun ys =>
          match ys[i]? with
          | some w => indexPtrUpd f ts w >>= fun w' => .ok (.arr (ys.set i w'))
          | none => .ub
    | _ => .throws "out_of_range.404"

/-- `f` done through the reference that `get_and_create` gives, json.hpp:10439-10498 -/
def createPtrUpd (f : Json F → Outcome (Json F)) : List Bytes → Json F → Outcome (Json F)
  | [], v => f v
  | t :: ts, .null =>
    if t = [0x30] then createPtrUpd f ts .null >>= fun v' => .ok (.arr [v'])
    else createPtrUpd f ts .null >>= fun v' => .ok (.obj [(t, v')])
  | t :: ts, .obj ms =>
    createPtrUpd f ts ((lookup t ms).getD .null) >>= fun v' => .ok (.obj (setKey t v' ms))
  | t :: ts, .arr xs =>
    tokenIndex t >>= fun i =>
      fillTo i xs >>= fun ys =>
        match ys[i]? with
        | some w => createPtrUpd f ts w >>= fun w' => .ok (.arr (ys.set i w'))
        | none => .ub
  | _ :: _, .bool _ | _ :: _, .int _ | _ :: _, .uint _ | _ :: _, .float _ | _ :: _, .str _ =>
    .throws "type_error.313"

/-! ## Flattening -/

mutual
/-- `json_pointer::flatten`, json.hpp:10959-11008: the assignments to `result`, in their order -/
def flattenRec (p : Bytes) : Json F → List (Bytes × Json F)
  | .arr [] => [(p, .null)]
  | .arr xs => flattenArr p 0 xs
  | .obj [] => [(p, .null)]
  | .obj ms => flattenObj p ms
  | v => [(p, v)]
/-- the loop over an array, json.hpp:10975-10979 -/
def flattenArr (p : Bytes) (i : Nat) : List (Json F) → List (Bytes × Json F)
  | [] => []
  | v :: vs => flattenRec (p ++ [0x2f] ++ toStr i) v ++ flattenArr p (i + 1) vs
/-- the loop over an object, json.hpp:10994-10997 -/
def flattenObj (p : Bytes) : List (Bytes × Json F) → List (Bytes × Json F)
  | [] => []
  | (k, v) :: ms => flattenRec (p ++ [0x2f] ++ escape k) v ++ flattenObj p ms
end

/-- `flatten`, json.hpp:22013-22018 -/
def flatten (v : Json F) : Json F :=
  .obj ((flattenRec [] v).foldl (fun ms e => setKey e.1 e.2 ms) [])

/-- `is_primitive`, json.hpp:16643-16646 -/
def isPrimitive : Json F → Bool
  | .arr _ | .obj _ => false
  | .null | .bool _ | .int _ | .uint _ | .float _ | .str _ => true

/-- the loop of `unflatten`, json.hpp:11031-11044 -/
def unflattenLoop (result : Json F) : List (Bytes × Json F) → Outcome (Json F)
  | [] => .ok result
  | (k, v) :: ms =>
    if isPrimitive v then
      split k >>= fun ts =>
        createPtrUpd (fun _ => .ok v) ts result >>= fun result' => unflattenLoop result' ms
    else .throws "type_error.315"

/-- `unflatten`, json.hpp:22050-22053, 11021-11047 -/
def unflatten : Json F → Outcome (Json F)
  | .obj ms => unflattenLoop .null ms
  | _ => .throws "type_error.314"

end Verif.Json
