import Verif.LuaStack.Model

/-! A small interpreter and state, for the examples beside the theorems. -/

namespace Verif.LuaStack

/-- a small interpreter: numbers are rationals kept as integers, one function `(a, b) ↦ (b, a, 7)` -/
def exLua : Lua Int where
  floatToInt x := some x
  intToFloat i := i
  strToNum _ := none
  numToStr _ := []
  apply m f args := if f = 1 then .results m [args.getD 1 .nil, args.getD 0 .nil, .int 7] else .error m (.str [])
  script m b := if b = [1] then .results m [.int 1] else .results m []
  maxStack := 1000000

/-- a table `{ 3, 4 }` and a global holding it -/
def exMem : Mem Int where
  heap _ := ⟨fun i => if i = 1 then .int 3 else if i = 2 then .int 4 else .nil, fun _ => .str [65], 2⟩
  globals k := if k = [66] then .table 0 else if k = [67] then .func 1 else .nil

/-- the same with an empty stack -/
def exSt : St Int := ⟨exMem, [], 20, .nil⟩

/-- the same state with a value on the stack -/
def exOn (v : Val Int) : St Int := ⟨exMem, [v], 20, .nil⟩

/-- a table of two rows, `{ { 11, 12 }, { 21, 22 } }`, above another value -/
def exMat : St Int :=
  ⟨⟨fun a => if a = 0 then ⟨fun i => .table i.toNat, fun _ => .nil, 2⟩
    else ⟨fun i => .num (10 * a + i), fun _ => .nil, 2⟩, fun _ => .nil⟩, [.table 0, .nil], 20, .nil⟩

/-- a one-by-one matrix whose row holds a second number -/
def exRow : St Int :=
  ⟨⟨fun a => if a = 0 then ⟨fun i => .table i.toNat, fun _ => .nil, 1⟩
    else ⟨fun i => .num (10 * a + i), fun _ => .nil, 2⟩, fun _ => .nil⟩, [.table 0, .nil], 20, .nil⟩

end Verif.LuaStack
