import Verif.LuaStack.Read
import Verif.InputEngine.Model
import Mathlib.Data.List.Lex

/-!
# Model of `lua_source_t`, `ristra/initialization/input_source.h` 130-416, over the Lua stack

`Verif.InputEngine.Model` takes what Lua answers as a parameter.  Here the same source works on the
Lua state of `Verif.LuaStack.Model`: every lookup pushes, converts and pops, and leaves behind what
the code leaves behind, also when it throws.

A source is `LuaSource Bytes (Result F)`: names are strings, a loaded table is a `lua_result_t`.
Strings are ordered as `std::string` is, byte by byte, unsigned.

Not modelled: printing, which exception it is (`throw x` slices it; see `Verif.InputEngine.Model`).
-/

namespace Verif.Deck

open Verif.LuaStack
open Verif.InputEngine (LuaSource)

/-- bytes in their order as numbers, as `std::char_traits<char>::lt` compares them -/
instance : LinearOrder UInt8 where
  le_refl a := UInt8.le_refl a
  le_trans a b c := UInt8.le_trans
  le_antisymm a b := UInt8.le_antisymm
  le_total := UInt8.le_total
  lt_iff_le_not_ge a b := by rw [UInt8.lt_iff_toNat_lt, UInt8.le_iff_toNat_le, UInt8.le_iff_toNat_le]; omega
  toDecidableLE := inferInstance

variable {F : Type}

/-- a string of the code -/
def name (cs : List Char) : Bytes := cs.map fun c => UInt8.ofNat c.toNat

/-- the name under which the globals of the file are known, input_source.h:234, 347 -/
def baseState : Bytes := name ['b', 'a', 's', 'e', '_', 's', 't', 'a', 't', 'e']

/-- the source, input_source.h:162-373: the three maps; the Lua state is apart -/
abbrev Source (F : Type) := LuaSource Bytes (Result F)

/-- `from_table[l_key]` in each of the getters: input_source.h:247-255 (`get_size`), 276-283 (`get_value`), 330-336
(`get_lua_result_raw`), 385-391 (functions).  `std::map::at` throws when there is nothing -/
def find (L : Lua F) (src : Source F) (k : Bytes) : M F (Result F) :=
  match src.tableMap k with
  | none => throwE
  | some fromName =>
    match src.tables fromName with
    | none => throwE
    | some tbl => field L tbl ((src.luaKey k).getD k)

/-- `get_value<T>`, input_source.h:272-303; `none` is a false result -/
def getValue (L : Lua F) (src : Source F) (t : Ty) (k : Bytes) : M F (Option (CVal F)) := do
  let r ← find L src k
  if r.empty then pure none
  else do
    let c ← convert L r t
    pure (some c)

/-- `get_size`, input_source.h:245-268 -/
def getSize (L : Lua F) (src : Source F) (k : Bytes) : M F Nat := do
  let r ← find L src k
  pure r.size

/-- `get_lua_result_raw`, input_source.h:327-341, and the getter for functions, 381-400, which hands out a copy of
the result if there is one -/
def getRaw (L : Lua F) (src : Source F) (k : Bytes) : M F (Bool × Result F) := do
  let r ← find L src k
  pure (!r.empty, r)

/-- `get_table`, input_source.h:314-324 -/
def getTable (src : Source F) (k : Bytes) : M F (Result F) :=
  match src.tables k with
  | none => throwE
  | some r => pure r

/-- `lua_try_access`, embed_lua.h:54-60: looked up for `empty()` and again for the value, or again
for the name in the message -/
def tryAccess (look : M F (Result F)) : M F (Result F) := do
  let r ← look
  if r.empty then do
    let _ ← look
    throwE
  else look

/-- `m_tables.emplace(name, r)`: a table already there stays -/
def emplace (src : Source F) (n : Bytes) (r : Result F) : Source F :=
  match src.tables n with
  | some _ => src
  | none => { src with tables := Function.update src.tables n (some r) }

/-- `load_table`, input_source.h:344-356.  `m_table_map[load_name]` is there in every call -/
def loadTable (L : Lua F) (src : Source F) (n : Bytes) : M F (Source F) :=
  match src.tableMap n with
  | none => throwE
  | some fromName =>
    if fromName = baseState then do
      let r ← tryAccess (global n)
      pure (emplace src n r)
    else
      match src.tables fromName with
      | none => throwE
      | some tbl => do
        let r ← tryAccess (field L tbl n)
        pure (emplace src n r)

/-- an empty Lua name means none is given, input_source.h:219 -/
def given (lk : Bytes) : Option Bytes := if lk = [] then none else some lk

/-- `register_table`, input_source.h:233-239: the maps are changed before the table is loaded, and stay changed if
that throws -/
def registerTable (L : Lua F) (src : Source F) (n parent lk : Bytes) : M F (Bool × Source F) := do
  let src' ← loadTable L (src.registerValue n parent (given lk)).2 n
  pure ((src.registerValue n parent (given lk)).1, src')

/-! ## the constructor, 166-195 -/

/-- the names the constructor uses, input_source.h:176-198 -/
def hydro : Bytes := name ['h', 'y', 'd', 'r', 'o']
/-- input_source.h:177 -/
def mesh : Bytes := name ['m', 'e', 's', 'h']

/-- the values the constructor locates: the key, the table, and the name in the file; input_source.h:182-198 -/
def standard : List (Bytes × Bytes × Bytes) :=
  [(name ['p', 'r', 'e', 'f', 'i', 'x'], hydro, []),
   (name ['s', 'u', 'f', 'f', 'i', 'x'], hydro, name ['p', 'o', 's', 't', 'f', 'i', 'x']),
   (name ['o', 'u', 't', 'p', 'u', 't', '_', 'f', 'r', 'e', 'q'], hydro, []),
   (name ['C', 'F', 'L'], hydro, []),
   (name ['f', 'i', 'n', 'a', 'l', '_', 't', 'i', 'm', 'e'], hydro, []),
   (name ['m', 'a', 'x', '_', 's', 't', 'e', 'p', 's'], hydro, []),
   (name ['m', 'e', 's', 'h', '_', 't', 'y', 'p', 'e'], mesh, name ['t', 'y', 'p', 'e']),
   (name ['d', 'i', 'm', 'e', 'n', 's', 'i', 'o', 'n', 's'], mesh, []),
   (name ['x', 'm', 'i', 'n'], mesh, []),
   (name ['x', 'm', 'a', 'x'], mesh, []),
   (name ['f', 'i', 'l', 'e'], mesh, []),
   (name ['i', 'c', 's', '_', 'f', 'u', 'n', 'c'], hydro, name ['i', 'c', 's'])]

/-- `m_table_map[key] = ..` and `m_lua_key[key] = ..` for each of them, input_source.h:182-198 -/
def addAll (src : Source F) : List (Bytes × Bytes × Bytes) → Source F
  | [] => src
  | (k, tbl, lk) :: rest => addAll (src.registerValue k tbl (given lk)).2 rest

/-- the constructor, input_source.h:170-200: the file is run, then the tables `hydro` and `mesh` are loaded and the
values located.  `file` stands for what the file holds -/
def openFile (L : Lua F) (file : Bytes) : M F (Source F) := do
  run L file
  let src : Source F :=
    { tableMap := Function.update (Function.update (fun _ => none) hydro (some baseState)) mesh (some hydro)
      luaKey := fun _ => none, tables := fun _ => none }
  let src ← loadTable L src hydro
  let src ← loadTable L src mesh
  pure (addAll src standard)

end Verif.Deck
