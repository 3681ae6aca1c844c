import Verif.Json.IterModel

/-!
# Model of the conversions between C++ values and JSON values

`basic_json(CompatibleType&&)` with `to_json`, `get<T>`, `get_to`, `get_ptr` and `get_ref` (json.hpp:2893-3247,
3468-3774, 15840-15850, 16961-17432).  Which overload is chosen for which type is taken from the
conditions in the code; types are those of `CTy`.  Not modelled: types with a `to_json` or `from_json` of their
own, `long double`, `std::vector<bool>` apart from other vectors, hash tables apart from maps, other
character types.
-/

namespace Verif.Json

variable {F : Type}

/-- the conversions between numbers the compiler provides: of an integer to `double`, the integer part of a
`double` (none for NaN and the infinities), and to `float` and back (infinite beyond its range, as with IEC 559) -/
structure Casts (F : Type) where
  ofInt : Int → F
  trunc : F → Option Int
  round32 : F → F

/-- types.  `int signed width own`: an integer type, `own` if it is `number_integer_t` or `number_unsigned_t`
itself, which have overloads of their own (json.hpp:2981-2991); `float` is `float`, `double`
`number_float_t`; `enum` has the sign and width of its underlying type; `vec` is any sequence
container but the four that have overloads of their own: `flist` (`std::forward_list`), `valarray`,
`array` (`std::array`) and `carray` (`T[N]`); `tuple` is `std::tuple` and `std::pair`; `dict` is `std::map` and
`mdict` `std::multimap` with strings for keys, `table` is `std::map` with other keys; `json` is `basic_json`. -/
inductive CTy where
  | null
  | bool
  | str
  | int (signed : Bool) (width : Nat) (own : Bool)
  | float
  | double
  | enum (signed : Bool) (width : Nat)
  | vec (t : CTy)
  | flist (t : CTy)
  | valarray (t : CTy)
  | array (n : Nat) (t : CTy)
  | carray (n : Nat) (t : CTy)
  | tuple (ts : List CTy)
  | dict (t : CTy)
  | mdict (t : CTy)
  | table (k v : CTy)
  | json

/-- values of these types; maps are in the order of their keys -/
inductive CVal (F : Type) where
  | null
  | bool (b : Bool)
  | str (s : Bytes)
  | int (i : Int)
  | flt (x : F)
  | seq (vs : List (CVal F))
  | dict (ms : List (Bytes × CVal F))
  | table (es : List (CVal F × CVal F))
  | json (j : Json F)

/-- `static_cast` to an integer type of `w` bits: modulo `2 ^ w` (so for signed types too on all compilers
used, before C++20) -/
def wrapTo (signed : Bool) (w : Nat) (i : Int) : Int :=
  if signed = true ∧ 2 ^ (w - 1) ≤ i % 2 ^ w then i % 2 ^ w - 2 ^ w else i % 2 ^ w

/-- the integers a type has -/
def inType (signed : Bool) (w : Nat) (i : Int) : Prop :=
  if signed then -(2 ^ (w - 1)) ≤ i ∧ i < 2 ^ (w - 1) else 0 ≤ i ∧ i < 2 ^ w

instance (signed : Bool) (w : Nat) (i : Int) : Decidable (inType signed w i) := by
  unfold inType; cases signed <;> exact inferInstance

/-- `j = { ... }` with the components of a tuple or pair, json.hpp:3751-3754, 3764-3768; without components
the braces are empty and `j` becomes null (default constructor) -/
def ofBraces (js : List (Json F)) : Json F :=
  match js with
  | [] => .null
  | _ =>
    match ofInit none js with
    | .ok j => j
    | _ => .null

mutual
/-- `basic_json(val)`, json.hpp:15844-15850 with `to_json`: booleans 3648-3651, strings 3655-3658, floating-point
3668-3671, unsigned 3675-3678, signed 3682-3685, enumerations 3689-3693 (always stored as signed), sequences
3709-3712 with 3570-3580, `valarray` 3716-3719 with 3595-3607, maps 3729-3732 with 3629-3640, `T[N]` 3745-3748,
pairs 3751-3754, tuples 3765-3774; a map with other keys is a sequence of pairs (the conditions in
2599-2614, 2693-2707).  Not a value of the type: null. -/
def toJson : CTy → CVal F → Json F
  | .bool, .bool b => .bool b
  | .str, .str s => .str s
  | .int true _ _, .int i => .int i
  | .int false _ _, .int i => .uint i.toNat
  | .float, .flt x => .float x
  | .double, .flt x => .float x
  | .enum _ _, .int i => .int (wrapTo true 64 i)
  | .vec t, .seq vs => .arr (vs.map (toJson t))
  | .flist t, .seq vs => .arr (vs.map (toJson t))
  | .valarray t, .seq vs => .arr (vs.map (toJson t))
  | .array _ t, .seq vs => .arr (vs.map (toJson t))
  | .carray _ t, .seq vs => .arr (vs.map (toJson t))
  | .tuple ts, .seq vs => ofBraces (toJsonL ts vs)
  | .dict t, .dict ms => .obj (ms.foldl (fun ns e => emplaceKey e.1 (toJson t e.2) ns) [])
  | .mdict t, .dict ms => .obj (ms.foldl (fun ns e => emplaceKey e.1 (toJson t e.2) ns) [])
  | .table k v, .table es => .arr (es.map fun e => ofBraces [toJson k e.1, toJson v e.2])
  | .json, .json j => j
  | _, _ => .null

/-- the components of a tuple, json.hpp:3767 -/
def toJsonL : List CTy → List (CVal F) → List (Json F)
  | t :: ts, v :: vs => toJson t v :: toJsonL ts vs
  | _, _ => []
end

/-- `at(idx)`, json.hpp:17567-17586 -/
def atIndex (j : Json F) (i : Nat) : Outcome (Json F) :=
  match j with
  | .arr xs =>
    match xs[i]? with
    | some x => .ok x
    | none => .throws "out_of_range.401"
  | _ => .throws "type_error.304"

/-- `static_cast` of a `double` to an integer type: undefined if the integer part is not in the type -/
def floatToInt (c : Casts F) (signed : Bool) (w : Nat) (x : F) : Outcome (CVal F) :=
  match c.trunc x with
  | some i => if inType signed w i then .ok (.int i) else .ub
  | none => .ub

/-- numbers as an integer type: `get_arithmetic_value`, json.hpp:2913-2936, and, with `bools`, `from_json` for other
arithmetic types, 3154-3182 -/
def getInt (c : Casts F) (signed : Bool) (w : Nat) (bools : Bool) (j : Json F) : Outcome (CVal F) :=
  match j with
  | .uint n => .ok (.int (wrapTo signed w n))
  | .int i => .ok (.int (wrapTo signed w i))
  | .float x => floatToInt c signed w x
  | .bool b => if bools then .ok (.int (if b then 1 else 0)) else .throws "type_error.302"
  | _ => .throws "type_error.302"

/-- numbers as a floating-point type, json.hpp:2913-2936 and 3154-3182; `r` rounds to the type -/
def getFloat (c : Casts F) (r : F → F) (bools : Bool) (j : Json F) : Outcome (CVal F) :=
  match j with
  | .uint n => .ok (.flt (r (c.ofInt n)))
  | .int i => .ok (.flt (r (c.ofInt i)))
  | .float x => .ok (.flt (r x))
  | .bool b => if bools then .ok (.flt (r (c.ofInt (if b then 1 else 0)))) else .throws "type_error.302"
  | _ => .throws "type_error.302"

/-- `std::transform` with a conversion, stopping at the first exception -/
def getEach {A B : Type} (f : A → Outcome B) : List A → Outcome (List B)
  | [] => .ok []
  | x :: xs => f x >>= fun v => getEach f xs >>= fun vs => .ok (v :: vs)

/-- the loop `arr[i] = j.at(i).get<T>()`, json.hpp:3036-3039, 3053-3056, from the `i`-th element, `n` to go -/
def getN (f : Json F → Outcome (CVal F)) (j : Json F) : Nat → Nat → Outcome (List (CVal F))
  | 0, _ => .ok []
  | n + 1, i => atIndex j i >>= fun x => f x >>= fun v => getN f j n (i + 1) >>= fun vs => .ok (v :: vs)

/-- `emplace` into a `std::map` with the order `lt`: nothing if there is an equivalent key -/
def tableInsert (lt : CVal F → CVal F → Bool) (k v : CVal F) : List (CVal F × CVal F) → List (CVal F × CVal F)
  | [] => [(k, v)]
  | e :: es => if lt e.1 k then e :: tableInsert lt k v es else if lt k e.1 then (k, v) :: e :: es else e :: es

/-- one pair of a table, json.hpp:3214-3218 -/
def getEntry (f g : Json F → Outcome (CVal F)) (p : Json F) : Outcome (CVal F × CVal F) :=
  match p with
  | .arr _ => atIndex p 0 >>= fun a => f a >>= fun k => atIndex p 1 >>= fun b => g b >>= fun v => .ok (k, v)
  | _ => .throws "type_error.302"

mutual
/-- `get<T>()`, json.hpp:17175-17189 with `from_json`: null 2899-2906, booleans 2939-2946, strings 2949-2956,
enumerations 2995-3000, `forward_list` 3005-3017 (from the end to the front), `valarray` 3022-3030, `T[N]`
3033-3040, `std::array` 3049-3057, other sequences 3059-3096, checked to be arrays in 3106-3118, maps 3122-3140,
pairs and tuples 3184-3200 (left to right; for tuples the order is not fixed), other maps 3202-3220 (key before value; the order is not
fixed).  For
`T[N]` it is what `get_to` stores, 17284-17290; `basic_json` itself 17102-17105. -/
def get (c : Casts F) (lt : CVal F → CVal F → Bool) : CTy → Json F → Outcome (CVal F)
  | .null, j =>
    match j with
    | .null => .ok .null
    | _ => .throws "type_error.302"
  | .bool, j =>
    match j with
    | .bool b => .ok (.bool b)
    | _ => .throws "type_error.302"
  | .str, j =>
    match j with
    | .str s => .ok (.str s)
    | _ => .throws "type_error.302"
  | .int s w own, j => getInt c s w (!own) j
  | .float, j => getFloat c c.round32 true j
  | .double, j => getFloat c id false j
  | .enum s w, j => getInt c s w false j
  | .vec t, j =>
    match j with
    | .arr xs => getEach (get c lt t) xs >>= fun vs => .ok (.seq vs)
    | _ => .throws "type_error.302"
  | .flist t, j =>
    match j with
    | .arr xs => getEach (get c lt t) xs.reverse >>= fun vs => .ok (.seq vs.reverse)
    | _ => .throws "type_error.302"
  | .valarray t, j =>
    match j with
    | .arr xs => getEach (get c lt t) xs >>= fun vs => .ok (.seq vs)
    | _ => .throws "type_error.302"
  | .array n t, j =>
    match j with
    | .arr xs => getN (get c lt t) (.arr xs) n 0 >>= fun vs => .ok (.seq vs)
    | _ => .throws "type_error.302"
  | .carray n t, j => getN (get c lt t) j n 0 >>= fun vs => .ok (.seq vs)
  | .tuple ts, j => getL c lt ts 0 j >>= fun vs => .ok (.seq vs)
  | .dict t, j =>
    match j with
    | .obj ms => getEach (fun e => get c lt t e.2 >>= fun v => .ok (e.1, v)) ms >>= fun ns => .ok (.dict ns)
    | _ => .throws "type_error.302"
  | .mdict t, j =>
    match j with
    | .obj ms => getEach (fun e => get c lt t e.2 >>= fun v => .ok (e.1, v)) ms >>= fun ns => .ok (.dict ns)
    | _ => .throws "type_error.302"
  | .table k v, j =>
    match j with
    | .arr ps => getEach (getEntry (get c lt k) (get c lt v)) ps >>= fun es =>
      .ok (.table (es.foldl (fun t e => tableInsert lt e.1 e.2 t) []))
    | _ => .throws "type_error.302"
  | .json, j => .ok (.json j)

/-- the components of a tuple, json.hpp:3193, from the `i`-th -/
def getL (c : Casts F) (lt : CVal F → CVal F → Bool) : List CTy → Nat → Json F → Outcome (List (CVal F))
  | [], _, _ => .ok []
  | t :: ts, i, j => atIndex j i >>= fun x => get c lt t x >>= fun v => getL c lt ts (i + 1) j >>= fun vs => .ok (v :: vs)
end

mutual
/-- the value `T()` -/
def initial (c : Casts F) : CTy → CVal F
  | .null => .null
  | .bool => .bool false
  | .str => .str []
  | .int _ _ _ => .int 0
  | .float => .flt (c.ofInt 0)
  | .double => .flt (c.ofInt 0)
  | .enum _ _ => .int 0
  | .vec _ => .seq []
  | .flist _ => .seq []
  | .valarray _ => .seq []
  | .array n t => .seq (List.replicate n (initial c t))
  | .carray n t => .seq (List.replicate n (initial c t))
  | .tuple ts => .seq (initialL c ts)
  | .dict _ => .dict []
  | .mdict _ => .dict []
  | .table _ _ => .table []
  | .json => .json .null

/-- the components of a tuple `T()` -/
def initialL (c : Casts F) : List CTy → List (CVal F)
  | [] => []
  | t :: ts => initial c t :: initialL c ts
end

/-- a loop that stores each converted element before it converts the next: what it has stored when it ends, and
how it ends -/
def storeEach {A B : Type} (f : A → Outcome B) : List A → List B × Outcome Unit
  | [] => ([], .ok ())
  | x :: xs =>
    match f x with
    | .ok v => (v :: (storeEach f xs).1, (storeEach f xs).2)
    | .assertFail => ([], .assertFail)
    | .outOfRange => ([], .outOfRange)
    | .throws k => ([], .throws k)
    | .ub => ([], .ub)
    | .diverges => ([], .diverges)

/-- an assignment that happens only if the conversion before it succeeds -/
def storeWhole (r : Outcome (CVal F)) (old : CVal F) : CVal F × Outcome Unit :=
  match r with
  | .ok v => (v, .ok ())
  | .assertFail => (old, .assertFail)
  | .outOfRange => (old, .outOfRange)
  | .throws k => (old, .throws k)
  | .ub => (old, .ub)
  | .diverges => (old, .diverges)

/-- the elements of a variable that is a sequence -/
def seqOf : CVal F → List (CVal F)
  | .seq vs => vs
  | _ => []

/-- `get_to(v)`, json.hpp:17272-17290: the variable afterwards, and how the call ends.  A `forward_list` is cleared
and filled from its end to its front (3011-3016), a `valarray` resized, which sets all its elements
(3028-3029), an array written to element by element (3036-3039, 3053-3056), a map with other keys cleared and
filled (3211-3219); all others are assigned as a whole. -/
def getTo (c : Casts F) (lt : CVal F → CVal F → Bool) (ty : CTy) (j : Json F) (old : CVal F) : CVal F × Outcome Unit :=
  match ty, j with
  | .flist t, .arr xs =>
    ((.seq (storeEach (get c lt t) xs.reverse).1.reverse), (storeEach (get c lt t) xs.reverse).2)
  | .valarray t, .arr xs =>
    (.seq ((storeEach (get c lt t) xs).1 ++ List.replicate (xs.length - (storeEach (get c lt t) xs).1.length) (initial c t)),
      (storeEach (get c lt t) xs).2)
  | .array n t, .arr xs =>
    let r := storeEach (fun i => atIndex (.arr xs) i >>= get c lt t) (List.range n)
    (.seq (r.1 ++ (seqOf old).drop r.1.length), r.2)
  | .carray n t, j =>
    let r := storeEach (fun i => atIndex j i >>= get c lt t) (List.range n)
    (.seq (r.1 ++ (seqOf old).drop r.1.length), r.2)
  | .table k v, .arr ps =>
    (.table ((storeEach (getEntry (get c lt k) (get c lt v)) ps).1.foldl (fun t e => tableInsert lt e.1 e.2 t) []),
      (storeEach (getEntry (get c lt k) (get c lt v)) ps).2)
  | ty, j => storeWhole (get c lt ty j) old

/-! ## Pointers and references to what is stored -/

/-- the types `get_ptr` and `get_ref` can be asked for -/
inductive Slot where
  | object | array | string | boolean | integer | unsigned | float
deriving DecidableEq

/-- does `get_ptr` give a pointer: `get_impl_ptr`, json.hpp:16972-17053; `is_number_integer` (16773-16776) holds for
unsigned numbers too -/
def hasPtr : Slot → Json F → Bool
  | .object, .obj _ => true
  | .array, .arr _ => true
  | .string, .str _ => true
  | .boolean, .bool _ => true
  | .integer, .int _ => true
  | .integer, .uint _ => true
  | .unsigned, .uint _ => true
  | .float, .float _ => true
  | _, _ => false

/-- the value read through `get_ref<const number_integer_t&>()`, json.hpp:17067-17078: the bits of the union (15415-15430)
read as signed -/
def readInteger : Json F → Outcome Int
  | .int i => .ok i
  | .uint n => .ok (wrapTo true 64 n)
  | _ => .throws "type_error.303"

/-- the JSON value after `get_ref<number_integer_t&>() = i`: the bits are written, the type is not -/
def writeInteger (i : Int) : Json F → Outcome (Json F)
  | .int _ => .ok (.int i)
  | .uint _ => .ok (.uint (i % 2 ^ 64).toNat)
  | _ => .throws "type_error.303"

/-- through `get_ref<const number_unsigned_t&>()` -/
def readUnsigned : Json F → Outcome Nat
  | .uint n => .ok n
  | _ => .throws "type_error.303"

/-- through `get_ref<number_unsigned_t&>()` -/
def writeUnsigned (n : Nat) : Json F → Outcome (Json F)
  | .uint _ => .ok (.uint n)
  | _ => .throws "type_error.303"

end Verif.Json
