import Verif.Json.Model

/-!
# `getCatalystScripts`, from the bytes of its input file

`ristra/io/catalyst/utils/catalystUtils.hpp:15-45` with the members of `basic_json` it calls.
-/

namespace Verif.Json

/-- `"catalyst-scripts"` -/
def scriptsKey : Bytes :=
  [0x63, 0x61, 0x74, 0x61, 0x6C, 0x79, 0x73, 0x74, 0x2D, 0x73, 0x63, 0x72, 0x69, 0x70, 0x74, 0x73]

/-- `size()`, json.hpp:19196-19222 -/
def Json.size : Json F → Nat
  | .null => 0
  | .arr xs => xs.length
  | .obj ms => ms.length
  | _ => 1

/-- `operator[](size_type)`, json.hpp:17715-17738: the element, and the value afterwards (null becomes an
array, an array is filled up with nulls) -/
def Json.index (v : Json F) (i : Nat) : Outcome (Json F × Json F) :=
  let xs? := match v with
    | .null => some []
    | .arr xs => some xs
    | _ => none
  match xs? with
  | none => .throws "type_error.305"
  | some xs =>
    let xs' := if xs.length ≤ i then xs ++ List.replicate (i - xs.length + 1) .null else xs
    match xs'[i]? with
    | some x => .ok (x, .arr xs')
    | none => .ub

/-- `operator[](key)`, json.hpp:17799-17817: the element, and the value afterwards (null becomes an object,
a name that is missing is added with null) -/
def Json.member (v : Json F) (k : Bytes) : Outcome (Json F × Json F) :=
  let ms? := match v with
    | .null => some []
    | .obj ms => some ms
    | _ => none
  match ms? with
  | none => .throws "type_error.305"
  | some ms =>
    match lookup k ms with
    | some x => .ok (x, .obj ms)
    | none => .ok (.null, .obj (setKey k .null ms))

/-- `find(key) != end()`, json.hpp:18521-18531 -/
def Json.has (v : Json F) (k : Bytes) : Bool :=
  match v with
  | .obj ms => (lookup k ms).isSome
  | _ => false

/-- the conversion to `std::string`: `get<std::string>()`, json.hpp:17477-17481 and 2949-2956 -/
def Json.toStr : Json F → Outcome Bytes
  | .str s => .ok s
  | _ => .throws "type_error.302"

/-- `find_last_of("/")` -/
def lastSlash : Bytes → Option Nat
  | [] => none
  | c :: s => match lastSlash s with
    | some i => some (i + 1)
    | none => if c = 0x2F then some 0 else none

/-- `inputFilename.substr(0, foundBackslash)`, catalystUtils.hpp:22-23 -/
def scriptsPath (name : Bytes) : Bytes :=
  match lastSlash name with
  | some i => name.take i
  | none => name

/-- the loop of catalystUtils.hpp:33-39, `fuel` rounds at most: `i` runs up to `size()`, asked for in every
round.  (`jsonInput["catalyst-scripts"]` and `…[i]` may change the value.)  The counter is an
`int`: lists of more than 2147483647 entries are outside the model. -/
def scriptsLoop (path : Bytes) : Nat → Nat → Json F → List Bytes → Outcome (List Bytes)
  | 0, _, _, _ => .diverges
  | n + 1, i, v, acc =>
    match v.member scriptsKey with
    | .ok (x, v1) =>
      if i < x.size then
        match x.index i with
        | .ok (y, x') =>
          match y.toStr with
          | .ok s =>
            let v2 := match v1 with
              | .obj ms => .obj (setKey scriptsKey x' ms)
              | v1 => v1
            scriptsLoop path n (i + 1) v2 (acc ++ [path ++ 0x2F :: s])
          | .throws k => .throws k
          | _ => .ub
        | .throws k => .throws k
        | _ => .ub
      else .ok acc
    | .throws k => .throws k
    | _ => .ub

/-- how often the loop may run: the number of entries of the list, and once more -/
def scriptsFuel (v : Json F) : Nat :=
  match v.member scriptsKey with
  | .ok (x, _) => x.size + 1
  | _ => 1

/-- `getCatalystScripts`, catalystUtils.hpp:15-45.  A file that cannot be opened reads as an empty one: the
stream's buffer delivers the end of the file at once (json.hpp:3954-3992). -/
def catalystScripts (fl : Floats F) (name : Bytes) (file : Option Bytes) : Outcome (List Bytes) :=
  if name ≠ [] then
    match extract fl .null (file.getD []) with
    | .ok (v, _) =>
      if v.has scriptsKey then scriptsLoop (scriptsPath name) (scriptsFuel v) 0 v []
      else .ok []
    | .assertFail => .assertFail
    | .outOfRange => .outOfRange
    | .throws k => .throws k
    | .ub => .ub
    | .diverges => .diverges
  else .ok []

end Verif.Json
