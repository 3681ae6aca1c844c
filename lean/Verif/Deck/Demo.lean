import Verif.Deck.Session

/-! An input file, for the examples beside the theorems about input files. -/

namespace Verif.Deck

open Verif.LuaStack

/-- keys of the example -/
def cfl : Bytes := name ['C', 'F', 'L']
/-- a key of the example -/
def xmin : Bytes := name ['x', 'm', 'i', 'n']
/-- a table of the example -/
def eos : Bytes := name ['e', 'o', 's']
/-- a key of the example -/
def gas : Bytes := name ['g', 'a', 's']

/-- `hydro = { CFL = 5, postfix = "A", mesh = { xmin = { 3, 4 }, type = "B" } }  eos = { gas = 7 }`,
with `hydro` at 0, `mesh` at 1, `xmin` at 2, `eos` at 3 -/
def deckMem : Mem Int where
  heap a :=
    if a = 0 then ⟨fun _ => .nil, fun k => if k = cfl then .num 5 else if k = name ['p', 'o', 's', 't', 'f', 'i', 'x'] then .str [65]
      else if k = mesh then .table 1 else .nil, 0⟩
    else if a = 1 then ⟨fun _ => .nil, fun k => if k = xmin then .table 2 else if k = name ['t', 'y', 'p', 'e'] then .str [66] else .nil, 0⟩
    else if a = 2 then ⟨fun i => if i = 1 then .num 3 else if i = 2 then .num 4 else .nil, fun _ => .nil, 2⟩
    else ⟨fun _ => .nil, fun k => if k = gas then .int 7 else .nil, 0⟩
  globals k := if k = hydro then .table 0 else if k = eos then .table 3 else .nil

/-- `hydro = { mesh = 5 }`: what is under `mesh` is not a table -/
def flatMem : Mem Int where
  heap _ := ⟨fun _ => .nil, fun k => if k = mesh then .int 5 else .nil, 0⟩
  globals k := if k = hydro then .table 0 else if k = eos then .table 0 else .nil

/-- the interpreter: file `[1]` is the example, `[2]` the flat one, `[3]` fails, `[4]` returns twenty
values -/
def deckLua : Lua Int where
  floatToInt x := some x
  intToFloat i := i
  strToNum _ := none
  numToStr _ := []
  apply m _ args := .results m (args ++ [.num 1])
  script m f := if f = [1] then .results deckMem [.int 1] else if f = [2] then .results flatMem []
    else if f = [4] then .results deckMem (List.replicate 20 .nil) else .error m (.str [])
  maxStack := 1000000

/-- a new Lua state -/
def deckSt : St Int := ⟨⟨fun _ => ⟨fun _ => .nil, fun _ => .nil, 0⟩, fun _ => .nil⟩, [], 20, .nil⟩

end Verif.Deck
