import Verif.Json.PointerModel
import Verif.Json.CompareModel

/-!
# Model of `patch`, `diff` and `merge_patch` of `ristra/io/catalyst/utils/json.hpp`

The members of the objects of a patch are made with initializer lists; that these make objects and not
arrays (json.hpp:16001-16050) is taken for granted.
-/

namespace Verif.Json

variable {F L : Type} [LinearOrder L]

/-! ## The words of a patch -/

/-- `"op"`, json.hpp:22281 -/
def wOp : Bytes := [0x6f, 0x70]
/-- `"path"`, json.hpp:22282 -/
def wPath : Bytes := [0x70, 0x61, 0x74, 0x68]
/-- `"value"`, json.hpp:22289 -/
def wValue : Bytes := [0x76, 0x61, 0x6c, 0x75, 0x65]
/-- `"from"`, json.hpp:22308 -/
def wFrom : Bytes := [0x66, 0x72, 0x6f, 0x6d]
/-- `"add"`, json.hpp:22121 -/
def wAdd : Bytes := [0x61, 0x64, 0x64]
/-- `"remove"`, json.hpp:22125 -/
def wRemove : Bytes := [0x72, 0x65, 0x6d, 0x6f, 0x76, 0x65]
/-- `"replace"`, json.hpp:22129 -/
def wReplace : Bytes := [0x72, 0x65, 0x70, 0x6c, 0x61, 0x63, 0x65]
/-- `"move"`, json.hpp:22133 -/
def wMove : Bytes := [0x6d, 0x6f, 0x76, 0x65]
/-- `"copy"`, json.hpp:22137 -/
def wCopy : Bytes := [0x63, 0x6f, 0x70, 0x79]
/-- `"test"`, json.hpp:22141 -/
def wTest : Bytes := [0x74, 0x65, 0x73, 0x74]

/-! ## Patching -/

/-- `std::map::erase`, for `erase` with a key (json.hpp:18433-18442) and with an iterator (22224) -/
def eraseKey (k : Bytes) : List (Bytes × Json F) → List (Bytes × Json F)
  | [] => []
  | (k', v) :: ms => if keyLt k k' ∨ keyLt k' k then (k', v) :: eraseKey k ms else ms

/-- what `operation_add` does to the parent, json.hpp:22171-22206 -/
def addTo (last : Bytes) (val : Json F) : Json F → Outcome (Json F)
  | .null => .ok (.obj [(last, val)])
  | .obj ms => .ok (.obj (setKey last val ms))
  | .arr xs =>
    if last = [0x2d] then .ok (.arr (xs ++ [val]))
    else bareIndex last >>= fun i =>
      if xs.length < i then .throws "out_of_range.401"
      else .ok (.arr (xs.take i ++ [val] ++ xs.drop i))
  | .bool _ | .int _ | .uint _ | .float _ | .str _ => .assertFail

/-- `operation_add`, json.hpp:22150-22207 -/
def operationAdd (ts : List Bytes) (val result : Json F) : Outcome (Json F) :=
  match ts with
  | [] => .ok val
  | t :: ts' =>
    (if ts' = [] then .ok result else atPtr [t] result) >>= fun _ =>
      indexPtrUpd (addTo (ts.getLastD []) val) ts.dropLast result

/-- what `operation_remove` does to the parent, json.hpp:22218-22235 -/
def removeFrom (last : Bytes) : Json F → Outcome (Json F)
  | .obj ms =>
    match lookup last ms with
    | some _ => .ok (.obj (eraseKey last ms))
    | none => .throws "out_of_range.403"
  | .arr xs =>
    bareIndex last >>= fun i =>
      if xs.length ≤ i then .throws "out_of_range.401" else .ok (.arr (xs.eraseIdx i))
  | v => .ok v

/-- `operation_remove`, json.hpp:22210-22236; `back` (10345-10353) throws for the pointer to the whole -/
def operationRemove (ts : List Bytes) (result : Json F) : Outcome (Json F) :=
  match ts with
  | [] => .throws "out_of_range.405"
  | _ :: _ => atPtrUpd (removeFrom (ts.getLastD [])) ts.dropLast result

/-- `get_value` with `string_type` false, json.hpp:22248-22272 -/
def getValue (member : Bytes) (ms : List (Bytes × Json F)) : Outcome (Json F) :=
  match lookup member ms with
  | some v => .ok v
  | none => .throws "parse_error.105"

/-- `get_value` with `string_type` true, json.hpp:22248-22272 -/
def getString (member : Bytes) (ms : List (Bytes × Json F)) : Outcome Bytes :=
  match lookup member ms with
  | some (.str s) => .ok s
  | _ => .throws "parse_error.105"

/-- is the exception caught by the handler for `out_of_range` of the library (json.hpp:22347): the kinds
that `at` throws -/
def isOutOfRange (k : String) : Bool :=
  k == "out_of_range.401" || k == "out_of_range.402" || k == "out_of_range.403" || k == "out_of_range.404"

/-- the operation `test`, json.hpp:22338-22358 -/
def operationTest (fo : FloatOrder F L) (ts : List Bytes) (ms : List (Bytes × Json F)) (result : Json F) :
    Outcome (Json F) :=
  match atPtr ts result with
  | .ok w => getValue wValue ms >>= fun v => if eqV fo w v then .ok result else .throws "other_error.501"
  | .throws k => if isOutOfRange k then .throws "other_error.501" else .throws k
  | .assertFail => .assertFail
  | .outOfRange => .outOfRange
  | .ub => .ub
  | .diverges => .diverges

/-- one round of the loop of `patch`, json.hpp:22245-22368.  Where `=` (22302) and `==` (22345) evaluate
their operands in an order of their own, the one that finds the place comes first here: it only matters
for which of two exceptions is thrown. -/
def patchStep (fo : FloatOrder F L) (result : Json F) : Json F → Outcome (Json F)
  | .obj ms =>
    getString wOp ms >>= fun op =>
    getString wPath ms >>= fun path =>
    split path >>= fun ts =>
      if op = wAdd then getValue wValue ms >>= fun v => operationAdd ts v result
      else if op = wRemove then operationRemove ts result
      else if op = wReplace then atPtrUpd (fun _ => getValue wValue ms) ts result
      else if op = wMove then
        getString wFrom ms >>= fun from_ =>
        split from_ >>= fun fs =>
        atPtr fs result >>= fun v =>
        operationRemove fs result >>= fun result' =>
        operationAdd ts v result'
      else if op = wCopy then
        getString wFrom ms >>= fun from_ =>
        split from_ >>= fun fs =>
        atPtr fs result >>= fun v =>
        operationAdd ts v result
      else if op = wTest then operationTest fo ts ms result
      else .throws "parse_error.105"
  | _ => .throws "parse_error.104"

/-- the loop of `patch`, json.hpp:22245-22368 -/
def patchLoop (fo : FloatOrder F L) (result : Json F) : List (Json F) → Outcome (Json F)
  | [] => .ok result
  | o :: os => patchStep fo result o >>= fun result' => patchLoop fo result' os

/-- `patch`, json.hpp:22111-22371 -/
def patch (fo : FloatOrder F L) (v : Json F) : Json F → Outcome (Json F)
  | .arr os => patchLoop fo v os
  | _ => .throws "parse_error.104"

/-! ## The difference of two values -/

/-- `type`: the enumeration `value_t`, json.hpp:2854-2866 -/
def typeTag : Json F → Nat
  | .null => 0
  | .obj _ => 1
  | .arr _ => 2
  | .str _ => 3
  | .bool _ => 4
  | .int _ => 5
  | .uint _ => 6
  | .float _ => 7

/-- the object of an operation, json.hpp:22423-22425, 22464-22468, 22507-22510, 22521-22523: a map, in the
order of its keys -/
def opVal (op path : Bytes) (value : Json F) : Json F :=
  .obj [(wOp, .str op), (wPath, .str path), (wValue, value)]

/-- the object of a removal, json.hpp:22452-22456, 22492-22495 -/
def opRemove (path : Bytes) : Json F := .obj [(wOp, .str wRemove), (wPath, .str path)]

/-- the removals of the elements of an array from index `i` on, each put before those put in before:
the last first, json.hpp:22447-22458 -/
def diffRemoves (path : Bytes) (i : Nat) : List (Json F) → List (Json F)
  | [] => []
  | _ :: xs => diffRemoves path (i + 1) xs ++ [opRemove (path ++ [0x2f] ++ toStr i)]

/-- the additions of the elements of an array from index `i` on, json.hpp:22461-22470 -/
def diffAdds (path : Bytes) (i : Nat) : List (Json F) → List (Json F)
  | [] => []
  | y :: ys => opVal wAdd (path ++ [0x2f] ++ toStr i) y :: diffAdds path (i + 1) ys

/-- the second loop over objects, json.hpp:22500-22512 -/
def diffNew (path : Bytes) (ms : List (Bytes × Json F)) : List (Bytes × Json F) → List (Json F)
  | [] => []
  | (k, v) :: ns =>
    match lookup k ms with
    | none => opVal wAdd (path ++ [0x2f] ++ escape k) v :: diffNew path ms ns
    | some _ => diffNew path ms ns

mutual
/-- `diff`, json.hpp:22407-22529: the elements of the array it returns -/
def diffRec (fo : FloatOrder F L) (source target : Json F) (path : Bytes) : List (Json F) :=
  if eqV fo source target then []
  else if typeTag source ≠ typeTag target then [opVal wReplace path target]
  else
    match source, target with
    | .arr xs, .arr ys => diffArr fo path 0 xs ys
    | .obj ms, .obj ns => diffObj fo path ns ms ++ diffNew path ms ns
    | _, t => [opVal wReplace path t]
/-- the loops over arrays, json.hpp:22434-22470 -/
def diffArr (fo : FloatOrder F L) (path : Bytes) (i : Nat) :
    List (Json F) → List (Json F) → List (Json F)
  | x :: xs, y :: ys => diffRec fo x y (path ++ [0x2f] ++ toStr i) ++ diffArr fo path (i + 1) xs ys
  | x :: xs, [] => diffRemoves path i (x :: xs)
  | [], ys => diffAdds path i ys
/-- the first loop over objects, json.hpp:22478-22497 -/
def diffObj (fo : FloatOrder F L) (path : Bytes) (ns : List (Bytes × Json F)) :
    List (Bytes × Json F) → List (Json F)
  | [] => []
  | (k, v) :: ms =>
    (match lookup k ns with
     | some w => diffRec fo v w (path ++ [0x2f] ++ escape k)
     | none => [opRemove (path ++ [0x2f] ++ escape k)]) ++ diffObj fo path ns ms
end

/-- `diff`, json.hpp:22407-22529 -/
def diff (fo : FloatOrder F L) (source target : Json F) : Json F := .arr (diffRec fo source target [])

/-! ## Merging a patch -/

mutual
/-- `merge_patch`, json.hpp:22582-22606: the value after the call -/
def mergePatch (v : Json F) : Json F → Json F
  | .obj ps =>
    match v with
    | .obj ms => .obj (mergeLoop ms ps)
    | _ => .obj (mergeLoop [] ps)
  | p => p
/-- the loop of `merge_patch`, json.hpp:22590-22600 -/
def mergeLoop (ms : List (Bytes × Json F)) : List (Bytes × Json F) → List (Bytes × Json F)
  | [] => ms
  | (k, p) :: ps =>
    match p with
    | .null => mergeLoop (eraseKey k ms) ps
    | p => mergeLoop (setKey k (mergePatch ((lookup k ms).getD .null) p) ms) ps
end

end Verif.Json
