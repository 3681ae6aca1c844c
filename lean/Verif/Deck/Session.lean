import Verif.Deck.Model

/-!
# Programs that use an input file, and what the file says

`session` runs a program's calls on the source, catching the exceptions.  `told` is what the calls
should answer, in terms of the contents of the file: every table is known by its path from the
globals of the file, and there is no stack.
-/

namespace Verif.Deck

open Verif.LuaStack
open Verif.InputEngine (LuaSource)

variable {F : Type}

/-- the calls on a source -/
inductive Query
  | value (t : Ty) (k : Bytes)
  | size (k : Bytes)
  | raw (k : Bytes)
  | table (n : Bytes)
  | locate (k tbl lk : Bytes)
  | load (n parent lk : Bytes)

/-- the answers -/
inductive Answer (F : Type)
  | threw
  | value (c : Option (CVal F))
  | size (n : Nat)
  | raw (found : Bool) (r : Result F)
  | table (r : Result F)
  | replaced (b : Bool)

/-- a call whose exception is caught; `none` is undefined behaviour -/
def catching {α : Type} (r : R F α) (onThrow : Source F) (f : α → Answer F × Source F) :
    Option (Answer F × Source F × St F) :=
  match r with
  | .ok a s => some ((f a).1, (f a).2, s)
  | .throw s => some (.threw, onThrow, s)
  | .ub => none

/-- one call: input_source.h:210-239, 245-268, 306-341 -/
def ask (L : Lua F) (src : Source F) (s : St F) : Query → Option (Answer F × Source F × St F)
  | .value t k => catching (getValue L src t k s) src fun c => (.value c, src)
  | .size k => catching (getSize L src k s) src fun n => (.size n, src)
  | .raw k => catching (getRaw L src k s) src fun x => (.raw x.1 x.2, src)
  | .table n => catching (getTable src n s) src fun r => (.table r, src)
  | .locate k tbl lk => some (.replaced (src.registerValue k tbl (given lk)).1, (src.registerValue k tbl (given lk)).2, s)
  | .load n parent lk => catching (registerTable L src n parent lk s) (src.registerValue n parent (given lk)).2
      fun x => (.replaced x.1, x.2)

/-- a program: call after call -/
def session (L : Lua F) (src : Source F) (s : St F) : List Query → Option (List (Answer F) × Source F × St F)
  | [] => some ([], src, s)
  | q :: qs =>
    match ask L src s q with
    | none => none
    | some (a, src', s') =>
      match session L src' s' qs with
      | none => none
      | some (as, r) => some (a :: as, r)

/-! ## what the file says -/

/-- following names from a value; nothing is inside what is not a table -/
def follow (m : Mem F) : Val F → List Bytes → Val F
  | v, [] => v
  | .table a, k :: ks => follow m ((m.heap a).gets k) ks
  | _, _ :: _ => .nil

/-- the value at a path: the first name is that of a global -/
def valueAt (m : Mem F) : List Bytes → Val F
  | [] => .nil
  | g :: ks => follow m (m.globals g) ks

/-- where a program believes its inputs to be: for each key the table and the name in it, for each
table the path -/
structure Book where
  table : Bytes → Option Bytes
  nick : Bytes → Option Bytes
  path : Bytes → Option (List Bytes)

/-- the value of a key, if its table is known and is a table -/
def Book.find (m : Mem F) (b : Book) (k : Bytes) : Option (Val F) :=
  match b.table k with
  | none => none
  | some n =>
    match b.path n with
    | none => none
    | some p =>
      match valueAt m p with
      | .table _ => some (valueAt m (p ++ [(b.nick k).getD k]))
      | _ => none

/-- locating a key: the old name stays if none is given -/
def Book.locate (b : Book) (k tbl lk : Bytes) : Book :=
  { b with
    table := Function.update b.table k (some tbl)
    nick := if lk = [] then b.nick else Function.update b.nick k (some lk) }

/-- the path of a table below `parent`; names of globals end at a zero byte -/
def Book.below (b : Book) (n parent : Bytes) : Option (List Bytes) :=
  if parent = baseState then some [cstr n]
  else match b.path parent with
    | none => none
    | some p => some (p ++ [n])

/-- a table known already stays where it was -/
def Book.add (b : Book) (n : Bytes) (p : List Bytes) : Book :=
  match b.path n with
  | some _ => b
  | none => { b with path := Function.update b.path n (some p) }

/-- the `lua_result_t` of a value -/
def whole (m : Mem F) (v : Val F) : Result F := ⟨[v], rawlen m v⟩

/-- the answer to a call for a value of type `t` -/
def valueSaid (L : Lua F) (m : Mem F) (t : Ty) : Option (Val F) → Option (Answer F)
  | none => some .threw
  | some .nil => some (.value none)
  | some v => match read L m t v with
    | .ok c => some (.value (some c))
    | .ub => none
    | _ => some .threw

/-- the value is not `nil` -/
def present : Val F → Bool
  | .nil => false
  | _ => true

/-- what a call answers, and what the program knows afterwards -/
def told (L : Lua F) (m : Mem F) (b : Book) : Query → Option (Answer F × Book)
  | .value t k => (valueSaid L m t (b.find m k)).map fun a => (a, b)
  | .size k => match b.find m k with
    | none => some (.threw, b)
    | some v => some (.size (rawlen m v), b)
  | .raw k => match b.find m k with
    | none => some (.threw, b)
    | some v => some (.raw (present v) (whole m v), b)
  | .table n => match b.path n with
    | none => some (.threw, b)
    | some p => some (.table (whole m (valueAt m p)), b)
  | .locate k tbl lk => some (.replaced (b.table k).isSome, b.locate k tbl lk)
  | .load n parent lk =>
    match (b.locate n parent lk).below n parent with
    | none => some (.threw, b.locate n parent lk)
    | some p =>
      if present (valueAt m p) then some (.replaced (b.table n).isSome, (b.locate n parent lk).add n p)
      else some (.threw, b.locate n parent lk)

/-- what a program is told -/
def toldAll (L : Lua F) (m : Mem F) (b : Book) : List Query → Option (List (Answer F) × Book)
  | [] => some ([], b)
  | q :: qs =>
    match told L m b q with
    | none => none
    | some (a, b') =>
      match toldAll L m b' qs with
      | none => none
      | some (as, r) => some (a :: as, r)

/-- everything loaded as a table is a table -/
def Tables (m : Mem F) (b : Book) : Prop := ∀ n p, b.path n = some p → ∃ a, valueAt m p = .table a

/-- and remains so during the program -/
def Tame (L : Lua F) (m : Mem F) : Book → List Query → Prop
  | _, [] => True
  | b, q :: qs => Tables m b ∧ ∀ a b', told L m b q = some (a, b') → Tame L m b' qs

/-- the types asked for are nested at most 18 deep -/
def Shallow : List Query → Prop := fun qs => ∀ t k, Query.value t k ∈ qs → depth t ≤ 18

/-- the book after opening a file: two tables and the standard keys, input_source.h:176-198 -/
def opened : Book where
  table k := if k = hydro then some baseState else if k = mesh then some hydro
    else (standard.find? fun row => row.1 = k).map fun row => row.2.1
  nick k := ((standard.find? fun row => row.1 = k).map fun row => row.2.2).bind given
  path n := if n = hydro then some [hydro] else if n = mesh then some [hydro, mesh] else none

end Verif.Deck
