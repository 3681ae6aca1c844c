import Verif.Json.PointerModel

/-!
# Model of the access to elements of a JSON value, `ristra/io/catalyst/utils/json.hpp`

`at` and `operator[]`, with a key or an index, one after the other: `j["a"][3]["b"]`.

A value is given as a whole before and after; a reference is where a chain of steps leads to, and what is done
through it is a function.  Simplifications: memory lacks only where an array would be longer than `max_size()`; the
value assigned is made before and does not depend on the value that is changed; keys are strings (the forms with
`T*`, json.hpp:17888-17950, make them of the characters before the first zero).
-/

namespace Verif.Json
open Verif

variable {F T : Type}

/-- one access: `[key]` or `at(key)`; `[index]` or `at(index)`, the index a number of 64 bits -/
inductive Acc where
  | key (k : Bytes)
  | idx (i : Nat)
deriving DecidableEq

/-- `at`, of a constant value, json.hpp:17567-17587, 17669-17689 -/
def atChain : List Acc → Json F → Outcome (Json F)
  | [], v => .ok v
  | .key k :: ss, v =>
    match v with
    | .obj ms =>
      match lookup k ms with
      | some w => atChain ss w
      | none => .throws "out_of_range.403"
    | _ => .throws "type_error.304"
  | .idx i :: ss, v =>
    match v with
    | .arr xs =>
      match xs[i]? with
      | some w => atChain ss w
      | none => .throws "out_of_range.401"
    | _ => .throws "type_error.304"

/-- `f` done through the reference that `at` gives, json.hpp:17520-17540, 17618-17638: the value afterwards, and the
outcome -/
def atDo (f : Json F → Json F × Outcome T) : List Acc → Json F → Json F × Outcome T
  | [], v => f v
  | .key k :: ss, v =>
    match v with
    | .obj ms =>
      match lookup k ms with
      | some w => let r := atDo f ss w; (.obj (setKey k r.1 ms), r.2)
      | none => (v, .throws "out_of_range.403")
    | _ => (v, .throws "type_error.304")
  | .idx i :: ss, v =>
    match v with
    | .arr xs =>
      match xs[i]? with
      | some w => let r := atDo f ss w; (.arr (xs.set i r.1), r.2)
      | none => (v, .throws "out_of_range.401")
    | _ => (v, .throws "type_error.304")

/-- `operator[]` of a constant value, json.hpp:17761-17770, 17848-17858, 17936-17949 -/
def constChain : List Acc → Json F → Outcome (Json F)
  | [], v => .ok v
  | .key k :: ss, v =>
    match v with
    | .obj ms =>
      match lookup k ms with
      | some w => constChain ss w
      | none => .assertFail
    | _ => .throws "type_error.305"
  | .idx i :: ss, v =>
    match v with
    | .arr xs =>
      match xs[i]? with
      | some w => constChain ss w
      | none => .ub
    | _ => .throws "type_error.305"

/-- a null becomes an empty array, json.hpp:17717-17723 -/
def arrOfNull : Json F → Json F
  | .null => .arr []
  | v => v

/-- a null becomes an empty object, json.hpp:17801-17807, 17892-17898 -/
def objOfNull : Json F → Json F
  | .null => .obj []
  | v => v

/-- `f` done through the reference that `operator[]` gives, json.hpp:17715-17740, 17799-17816, 17888-17907: the value
afterwards, and the outcome -/
def indexDo (f : Json F → Json F × Outcome T) : List Acc → Json F → Json F × Outcome T
  | [], v => f v
  | .key k :: ss, v =>
    match objOfNull v with
    | .obj ms => let r := indexDo f ss ((lookup k ms).getD .null); (.obj (setKey k r.1 ms), r.2)
    | v => (v, .throws "type_error.305")
  | .idx i :: ss, v =>
    match arrOfNull v with
    | .arr xs =>
      match fillTo i xs with
      | .ok ys =>
        match ys[i]? with
        | some w => let r := indexDo f ss w; (.arr (ys.set i r.1), r.2)
        | none => (.arr ys, .ub)
      | _ => (.arr xs, .throws "length_error")
    | v => (v, .throws "type_error.305")

/-- what is done through a reference: `= x`, json.hpp:16470-16486 -/
def assignTo (x : Json F) : Json F → Json F × Outcome Unit := fun _ => (x, .ok ())

/-- what is done through a reference: reading it -/
def readFrom : Json F → Json F × Outcome (Json F) := fun v => (v, .ok v)

end Verif.Json
