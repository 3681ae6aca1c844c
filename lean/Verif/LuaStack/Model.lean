/-!
# Model of `ristra/embedded/embed_lua.h`: values and calls through the Lua stack

The Lua C API is modelled as a stack machine (Lua 5.3 manual, section 4): the stack, the number
of slots the caller may use (`cap`, raised by `lua_checkstack`; pushing beyond it is undefined),
the tables and the globals.  Values are integers, floating numbers (any type `F`), booleans,
strings, tables, functions and `other` (userdata, threads).

The interpreter itself is a parameter (`Lua`): what a called function or a script does to tables
and globals, and which conversions between numbers and strings exist, is arbitrary.

A reference (`lua_ref_t`) is the value it refers to; `Verif.LuaStack.Refs` models the registry
behind it and `Verif.Printing.Model` the stack dump.  Not modelled: names and messages, memory
exhaustion.  `Lua_Func_Wrapper` is in `Verif.Deck.Wrapper`.
-/

namespace Verif.LuaStack

/-- the contents of a string -/
abbrev Bytes := List UInt8

/-- Lua values -/
inductive Val (F : Type)
  | nil
  | bool (b : Bool)
  | int (i : Int)
  | num (x : F)
  | str (s : Bytes)
  | table (a : Nat)
  | func (a : Nat)
  | other
deriving DecidableEq, Repr

/-- a table: raw access by integer and by string, and the length `lua_rawlen` reports (any border) -/
structure Table (F : Type) where
  geti : Int → Val F
  gets : Bytes → Val F
  len : Nat

/-- tables and globals -/
structure Mem (F : Type) where
  heap : Nat → Table F
  globals : Bytes → Val F

/-- how a Lua function or script ends: with an error value or with results -/
inductive Called (F : Type)
  | error (m : Mem F) (e : Val F)
  | results (m : Mem F) (rs : List (Val F))

/-- the interpreter -/
structure Lua (F : Type) where
  /-- a float that is a 64-bit integer -/
  floatToInt : F → Option Int
  intToFloat : Int → F
  /-- a string that is a numeral -/
  strToNum : Bytes → Option (Int ⊕ F)
  numToStr : Int ⊕ F → Bytes
  /-- a function applied to arguments -/
  apply : Mem F → Nat → List (Val F) → Called F
  /-- a script; compile errors included -/
  script : Mem F → Bytes → Called F
  /-- LUAI_MAXSTACK -/
  maxStack : Nat

/-- the Lua state; the stack is listed from the top.  `base` is what the slot below the stack
holds, which is what index -1 finds when the stack is empty -/
structure St (F : Type) where
  mem : Mem F
  stack : List (Val F)
  cap : Nat
  base : Val F

/-- a call returns, throws (the Lua state stays changed) or is undefined -/
inductive R (F : Type) (α : Type)
  | ok (a : α) (s : St F)
  | throw (s : St F)
  | ub

/-- a computation on the Lua state -/
def M (F : Type) (α : Type) := St F → R F α

instance {F : Type} : Monad (M F) where
  pure a := fun s => .ok a s
  bind x f := fun s =>
    match x s with
    | .ok a s' => f a s'
    | .throw s' => .throw s'
    | .ub => .ub

section
variable {F : Type}

/-- `THROW_RUNTIME_ERROR`, assertions/errors.h; errors.h:35-40 -/
def throwE {α : Type} : M F α := fun s => .throw s

/-- undefined behaviour -/
def undef {α : Type} : M F α := fun _ => .ub

/-! ## the Lua functions used -/

/-- the push family: needs a free slot -/
def push (v : Val F) : M F Unit := fun s =>
  if s.stack.length < s.cap then .ok () { s with stack := v :: s.stack } else .ub

/-- `lua_checkstack` -/
def checkstack (L : Lua F) (n : Nat) : M F Bool := fun s =>
  if s.stack.length + n ≤ L.maxStack then .ok true { s with cap := max s.cap (s.stack.length + n) } else .ok false s

/-- the distance from the top of index `idx`, in a stack of `n` -/
def depthOf (n : Nat) (idx : Int) : Option Nat :=
  if idx < 0 then (if (-idx).toNat ≤ n then some ((-idx).toNat - 1) else none)
  else if 0 < idx ∧ idx.toNat ≤ n then some (n - idx.toNat) else none

/-- the value at an index; -1 in an empty stack is the slot below it, any other index outside the
stack is undefined -/
def peek (idx : Int) : M F (Val F) := fun s =>
  match depthOf s.stack.length idx with
  | some d => match s.stack[d]? with
    | some v => .ok v s
    | none => .ub
  | none => if idx = -1 then .ok s.base s else .ub

/-- `lua_remove` -/
def remove (idx : Int) : M F Unit := fun s =>
  match depthOf s.stack.length idx with
  | some d => .ok () { s with stack := s.stack.eraseIdx d }
  | none => .ub

/-- `lua_settop(s,0)` -/
def clear : M F Unit := fun s => .ok () { s with stack := [] }

/-- `lua_gettop` -/
def gettop : M F Nat := fun s => .ok s.stack.length s

/-- the numeric value, if any: numbers, and strings that are numerals (`lua_isnumber`) -/
def toNum (L : Lua F) : Val F → Option (Int ⊕ F)
  | .int i => some (.inl i)
  | .num x => some (.inr x)
  | .str b => L.strToNum b
  | _ => none

/-- `lua_tointeger`: zero if there is no integer value -/
def toInteger (L : Lua F) (v : Val F) : Int :=
  match toNum L v with
  | some (.inl i) => i
  | some (.inr x) => (L.floatToInt x).getD 0
  | none => 0

/-- `lua_tonumber` of something that is a number -/
def asFloat (L : Lua F) : Int ⊕ F → F
  | .inl i => L.intToFloat i
  | .inr x => x

/-- `lua_isstring` and `lua_tolstring`: strings and numbers -/
def toStr (L : Lua F) : Val F → Option Bytes
  | .str b => some b
  | .int i => some (L.numToStr (.inl i))
  | .num x => some (L.numToStr (.inr x))
  | _ => none

/-- a `const char *` ends at the first zero byte -/
def cstr (b : Bytes) : Bytes := b.takeWhile (· != 0)

/-- `lua_rawlen` -/
def rawlen (m : Mem F) : Val F → Nat
  | .table a => (m.heap a).len
  | .str b => b.length
  | _ => 0

/-- `lua_rawgeti(s, -1, n)`: undefined unless the top is a table -/
def rawgeti (n : Int) : M F Unit := fun s =>
  match s.stack with
  | .table a :: _ => push ((s.mem.heap a).geti n) s
  | _ => .ub

/-! ## lua_value -/

/-- C++ integer types: width, and whether signed -/
structure IntTy where
  bits : Nat
  signed : Bool
deriving DecidableEq, Repr

/-- conversion from `lua_Integer`: modulo `2^bits` -/
def IntTy.wrap (t : IntTy) (i : Int) : Int :=
  if t.signed then Int.bmod i (2 ^ t.bits) else i % (2 ^ t.bits : Int)

/-- the types `lua_value` is specialised for; embed_lua.h:76-285 -/
inductive Ty
  | int (t : IntTy)
  | float
  | bool
  | str
  | vec (t : Ty)
  | arr (t : Ty) (n : Nat)
  | mat (t : Ty) (m n : Nat)
deriving DecidableEq, Repr

/-- C++ values -/
inductive CVal (F : Type)
  | int (i : Int)
  | num (x : F)
  | bool (b : Bool)
  | str (s : Bytes)
  | list (l : List (CVal F))

/-- `for (i = first; ...; ++i) results.push_back(body(i))`, `k` times -/
def collect {α : Type} (body : Int → M F α) (first : Int) : Nat → M F (List α)
  | 0 => pure []
  | k + 1 => do
    let a ← body first
    let rest ← collect body (first + 1) k
    pure (a :: rest)

/-- is the value at `idx` a table, and if not throw: embed_lua.h:180-183, 217-220, 261-264 -/
def checkIsTable (idx : Int) : M F Unit := do
  match ← peek idx with
  | .table _ => pure ()
  | _ => throwE

/-- `lua_rawlen(s, -1)` -/
def rawlenTop : M F Nat := fun s =>
  match peek (-1) s with
  | .ok v s' => .ok (rawlen s.mem v) s'
  | .throw s' => .throw s'
  | .ub => .ub

/-- `lua_value<T>::get(s, index)`, embed_lua.h:87-96 (integers), 109-118 (floats), 130-139 (bool),
151-160 (strings; a `std::string` is built from the `const char *`), 177-196 (vectors), 213-236
(arrays), 258-284 (matrices).  Strings: a float width narrower than `F` is not modelled -/
def get (L : Lua F) : Ty → Int → M F (CVal F)
  | .int t, idx => do
    let v ← peek idx
    match toNum L v with
    | none => throwE
    | some _ =>
      remove idx
      pure (.int (t.wrap (toInteger L v)))
  | .float, idx => do
    let v ← peek idx
    match toNum L v with
    | none => throwE
    | some n =>
      remove idx
      pure (.num (asFloat L n))
  | .bool, idx => do
    match ← peek idx with
    | .bool b =>
      remove idx
      pure (.bool b)
    | _ => throwE
  | .str, idx => do
    let v ← peek idx
    match toStr L v with
    | none => throwE
    | some b =>
      remove idx
      pure (.str (cstr b))
  | .vec t, idx => do
    checkIsTable idx
    let n ← rawlenTop
    let res ← collect (fun i => do rawgeti i; get L t (-1)) 1 n
    remove idx
    pure (.list res)
  | .arr t N, idx => do
    checkIsTable idx
    let n ← rawlenTop
    if n ≠ N then throwE
    else
      let res ← collect (fun i => do rawgeti i; get L t (-1)) 1 (min n N)
      remove idx
      pure (.list res)
  | .mat t m N, idx => do
    checkIsTable idx
    let n ← rawlenTop
    if n ≠ m then throwE
    else
      let res ← collect (fun i => do
        rawgeti i
        let row ← collect (fun j => do rawgeti j; get L t (-1)) 1 N
        remove (-1)
        pure (CVal.list row)) 1 m
      remove idx
      pure (.list res)

/-! ## lua_push -/

/-- arguments: `int`, `long long`, `size_t` (in range of the type), `float`/`double`, `bool`,
`std::string`/`const char *`, arrays of doubles; embed_lua.h:296-389 -/
inductive Arg (F : Type)
  | int (i : Int)
  | num (x : F)
  | bool (b : Bool)
  | str (s : Bytes)
  | arr (xs : List F)

/-- `lua_Integer`: 64 bits, signed -/
def luaInteger : IntTy := ⟨64, true⟩

/-- push several values -/
def pushes : List (Val F) → M F Unit
  | [] => pure ()
  | v :: vs => do push v; pushes vs

/-- `lua_push`, embed_lua.h:296-389: the number of values pushed -/
def luaPush (L : Lua F) : Arg F → M F Nat
  | .int i => do push (.int (luaInteger.wrap i)); pure 1
  | .num x => do push (.num x); pure 1
  | .bool b => do push (.bool b); pure 1
  | .str b => do push (.str b); pure 1
  | .arr xs => do
    if ← checkstack L (xs.length - 1) then
      pushes (xs.map Val.num)
      pure xs.length
    else throwE

/-! ## lua_result_t -/

/-- the referenced values (in the order of `refs_`) and the size; embed_lua.h:561-568 -/
structure Result (F : Type) where
  refs : List (Val F)
  size : Nat

/-- `check_stack`, embed_lua.h:623-634 -/
def checkStack (L : Lua F) (n : Nat) : M F Unit := do
  if ← checkstack L n then pure () else throwE

/-- `check_nil`, embed_lua.h:636-642 -/
def checkNil : M F Unit := do
  match ← peek (-1) with
  | .nil => throwE
  | _ => pure ()

/-- `check_table`, embed_lua.h:644-651 -/
def checkTable : M F Unit := do
  checkNil
  checkIsTable (-1)

/-- `check_function`, embed_lua.h:665-672 -/
def checkFunction : M F Nat := do
  checkNil
  match ← peek (-1) with
  | .func a => pure a
  | _ => throwE

/-- `push_last`, embed_lua.h:676-680; `refs_.back()` of an empty vector is undefined -/
def pushLast (L : Lua F) (r : Result F) : M F Unit := do
  checkStack L 1
  match r.refs.getLast? with
  | some v => push v
  | none => undef

/-- `push_all`, embed_lua.h:684-690 -/
def pushAll (L : Lua F) (r : Result F) : M F Unit := do
  checkStack L r.refs.length
  pushes r.refs

/-- `get_results`, embed_lua.h:579-595 -/
def getResults (L : Lua F) : List Ty → M F (List (CVal F))
  | [] => pure []
  | t :: ts => do
    let c ← get L t (-1)
    let cs ← getResults L ts
    pure (c :: cs)

/-- `push_args`, embed_lua.h:603-618 -/
def pushArgs (L : Lua F) : List (Arg F) → M F Nat
  | [] => pure 0
  | a :: as => do
    checkStack L 1
    let n ← luaPush L a
    let k ← pushArgs L as
    pure (n + k)

/-- `empty`, embed_lua.h:724-729 with 536-539 for one reference -/
def Result.empty (r : Result F) : Bool := r.refs.all fun v => match v with | .nil => true | _ => false

/-- `operator T`, embed_lua.h:747-752 -/
def convert (L : Lua F) (r : Result F) (t : Ty) : M F (CVal F) := do
  if r.refs.length ≠ 1 then throwE
  else
    pushLast L r
    get L t (-1)

/-- `operator std::tuple<Args...>`, embed_lua.h:758-769 -/
def convertTuple (L : Lua F) (r : Result F) (ts : List Ty) : M F (List (CVal F)) := do
  if r.refs.length ≠ ts.length then throwE
  else
    pushAll L r
    getResults L ts

/-- `as(def)`, embed_lua.h:780-783 -/
def asDefault (L : Lua F) (r : Result F) (t : Ty) (d : CVal F) : M F (CVal F) :=
  if r.empty then pure d else convert L r t

/-- `lua_pcall(s, nargs, LUA_MULTRET, 0)` of a function: function and arguments are replaced by
the results, and the stack grows as needed, or by an error value -/
def pcall (c : Mem F → List (Val F) → Called F) (nargs : Nat) : M F Bool := fun s =>
  let args := (s.stack.take nargs).reverse
  let below := s.stack.drop (nargs + 1)
  match c s.mem args with
  | .error m e => .ok false { s with mem := m, stack := e :: below }
  | .results m rs =>
    let stack := rs.reverse ++ below
    .ok true { s with mem := m, stack := stack, cap := max s.cap stack.length }

/-- `make_lua_ref`, embed_lua.h:546-550: pops the value.  (The type it records, of the value below, is
never used) -/
def makeRef : M F (Val F) := fun s =>
  match s.stack with
  | v :: rest => .ok v { s with stack := rest }
  | [] => .ub

/-- `operator()`, embed_lua.h:799-841 -/
def callResult (L : Lua F) (r : Result F) (args : List (Arg F)) : M F (Result F) := do
  let pos0 ← gettop
  checkStack L 1
  pushLast L r
  let f ← checkFunction
  let nargs ← pushArgs L args
  if ← pcall (fun m as => L.apply m f as) nargs then
    -- check_result, embed_lua.h:655-661
    match ← peek (-1) with
    | .nil => throwE
    | _ =>
      let pos1 ← gettop
      let refs ← collect (fun _ => makeRef) 0 (pos1 - pos0)
      pure ⟨refs, refs.length⟩
  else throwE

/-- `lua_rawget(s, -2)`: the key on top is replaced by the value in the table below -/
def rawgetKey (key : Bytes) : M F (Val F) := fun s =>
  match s.stack with
  | _ :: .table a :: rest =>
    .ok ((s.mem.heap a).gets key) { s with stack := (s.mem.heap a).gets key :: .table a :: rest }
  | _ => .ub

/-- `operator[](const std::string &)`, embed_lua.h:847-868: `lua_pop(s,-1)` is `lua_settop(s,0)` -/
def field (L : Lua F) (r : Result F) (key : Bytes) : M F (Result F) := do
  pushLast L r
  checkTable
  checkStack L 1
  push (.str key)
  let _ ← rawgetKey key
  let len ← rawlenTop
  let ref ← makeRef
  clear
  pure ⟨[ref], len⟩

/-- `operator[](int)`, embed_lua.h:873-890: the element is pushed without asking for a slot -/
def element (L : Lua F) (r : Result F) (n : Int) : M F (Result F) := do
  pushLast L r
  checkTable
  rawgeti n
  let len ← rawlenTop
  let ref ← makeRef
  clear
  pure ⟨[ref], len⟩

/-! ## lua_t -/

/-- the value `lua_getglobal` pushes -/
def getGlobal (key : Bytes) : M F (Val F) := fun s => .ok (s.mem.globals key) s

/-- `operator[]`, embed_lua.h:1005-1014: pushed without asking for a slot -/
def global (key : Bytes) : M F (Result F) := do
  let v ← getGlobal (cstr key)
  push v
  let len ← rawlenTop
  let ref ← makeRef
  pure ⟨[ref], len⟩

/-- `run_string` and `loadfile`, embed_lua.h:980-999: `luaL_dostring` pushes the chunk, which is
replaced by its results -/
def run (L : Lua F) (script : Bytes) : M F Unit := do
  push (.func 0)
  if ← pcall (fun m _ => L.script m (cstr script)) 0 then pure () else throwE

/-- `lua_try_access_as`, embed_lua.h:46-52: looked up twice -/
def tryAccessAs (L : Lua F) (key : Bytes) (t : Ty) : M F (CVal F) := do
  let r ← global key
  if r.empty then throwE
  else
    let r ← global key
    convert L r t

end

end Verif.LuaStack
