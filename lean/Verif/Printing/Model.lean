import Verif.MultiArray.Model
import Verif.LuaStack.Model

/-!
# Model of the output operators

`operator<<` of `math/array.h`, `utils/dimensioned_array.h` and `math/multi_array.h`, and the
stack dump of `embedded/embed_lua.h`.

A stream holds the text written so far and the field width (`std::setw`).  Every formatted
insertion of a text pads it on the left with blanks to the field width and sets the width back to
zero, as the standard says; `std::endl` writes a line feed unformatted.  Fill characters other
than the blank, left adjustment and write errors are not modelled.  How an element is inserted is
a parameter.
-/

namespace Verif.Printing

/-- what has been written -/
abbrev Text := List Char

/-- `std::ostream`, as far as modelled -/
structure Stream where
  out : Text
  width : Nat
deriving DecidableEq, Repr

/-- `os << "text"` -/
def Stream.put (s : Stream) (t : Text) : Stream :=
  ⟨s.out ++ (List.replicate (s.width - t.length) ' ' ++ t), 0⟩

/-- `os << std::setw(n)` -/
def Stream.setw (s : Stream) (n : Nat) : Stream := { s with width := n }

/-- `os << std::endl` -/
def Stream.endl (s : Stream) : Stream := { s with out := s.out ++ ['\n'] }

section
variable {T : Type}

/-- `operator<<(std::ostream &, const array<T,N> &)`, math/array.h:717-724 -/
def printArray (ins : Stream → T → Stream) (s : Stream) (a : List T) : Stream :=
  (a.foldl (fun s i => ins (s.put [' ']) i) (s.put ['('])).put [' ', ')']

/-- the loop `for (size_t i = 0; i < DIMENSION; i++) stream << " " << a[i]`, from index `i` with
`k` to go -/
def printLoop (ins : Stream → T → Stream) (a : List T) (s : Stream) (i : Nat) : Nat → Outcome Stream
  | 0 => .ok s
  | k + 1 => MultiArray.load a i >>= fun x => printLoop ins a (ins (s.put [' ']) x) (i + 1) k

/-- `operator << (std::ostream &, dimensioned_array__ const &)`, utils/dimensioned_array.h lines
369-389 -/
def printDim (ins : Stream → T → Stream) (s : Stream) (a : List T) (n : Nat) : Outcome Stream :=
  printLoop ins a (s.put ['[']) 0 n >>= fun s => .ok (s.put [' ', ']'])

/-- the inner loop of the matrix operator: `for i < D1: os << " " << a(i,j)`; multi_array.h:909 -/
def printColumn (ins : Stream → T → Stream) (dims : List Nat) (a : List T) (j : Nat) (s : Stream) (i : Nat) :
    Nat → Outcome Stream
  | 0 => .ok s
  | k + 1 => MultiArray.call dims a [i, j] >>= fun x =>
      printColumn ins dims a j (ins (s.put [' ']) x) (i + 1) k

/-- the outer loop: `for j < D2`; multi_array.h:907-911 -/
def printColumns (ins : Stream → T → Stream) (D1 D2 : Nat) (a : List T) (s : Stream) (j : Nat) : Nat → Outcome Stream
  | 0 => .ok s
  | k + 1 => printColumn ins [D1, D2] a j (s.put ['[']) 0 D1 >>= fun s =>
      printColumns ins D1 D2 a (s.put [' ', ']']).endl (j + 1) k

/-- `operator<<(std::ostream &, const multi_array<T,D1,D2> &)`, math/multi_array.h:903-912 -/
def printMatrix (ins : Stream → T → Stream) (D1 D2 : Nat) (s : Stream) (a : List T) : Outcome Stream :=
  printColumns ins D1 D2 a s 0 D2

end

/-! ## the Lua stack -/

section
open LuaStack
variable {F : Type}

/-- the characters of a `const char *`: the bytes before the first zero byte -/
def chars (b : Bytes) : Text := (cstr b).map fun c => Char.ofNat c.toNat

/-- `lua_typename`; light userdata and threads, which have names of their own, are not told apart
from userdata -/
def typeName : Val F → Text
  | .nil => "nil".toList
  | .bool _ => "boolean".toList
  | .int _ => "number".toList
  | .num _ => "number".toList
  | .str _ => "string".toList
  | .table _ => "table".toList
  | .func _ => "function".toList
  | .other => "userdata".toList

/-- `get_row`, embed_lua.h:425-445; `num` is how a stream writes a `lua_Number`.
`lua_tostring` is reached only for strings, so it converts nothing in place -/
def getRow (L : Lua F) (num : F → Text) (i : Int) : M F Text := do
  match ← peek i with
  | .str b => pure ("string >> ".toList ++ chars b)
  | .bool b => pure ("bool   >> ".toList ++ (if b then "true" else "false").toList)
  | .int n => pure ("number >> ".toList ++ num (L.intToFloat n))
  | .num x => pure ("number >> ".toList ++ num x)
  | v => pure ("other  >> ".toList ++ typeName v)

/-- the loop of `dump_stack` from row `i` with `k` to go; embed_lua.h:456-460 -/
def dumpRows (L : Lua F) (num : F → Text) (os : Stream) (i : Nat) : Nat → M F Stream
  | 0 => pure os
  | k + 1 => do
    let row ← getRow L num i
    dumpRows L num ((((os.setw 3).put (Nat.toDigits 10 i)).put " : ".toList).put row).endl (i + 1) k

/-- `dump_stack`, embed_lua.h:450-466, which is also `operator<<` of a Lua object, embed_lua.h:482-485 -/
def dumpStack (L : Lua F) (num : F → Text) (os : Stream) : M F Stream := do
  let top ← gettop
  if top ≠ 0 then dumpRows L num (os.put "Row : Type   >> Value".toList).endl 1 top
  else pure (os.put "(stack empty)".toList).endl

/-- `print_last_row`, embed_lua.h:469-476 -/
def printLastRow (L : Lua F) (num : F → Text) (os : Stream) : M F Stream := do
  let top ← gettop
  let os := (os.put "Row : Type   >> Value".toList).endl
  let row ← getRow L num (-1)
  pure ((((os.setw 3).put (Nat.toDigits 10 top)).put " : ".toList).put row).endl

end

end Verif.Printing
