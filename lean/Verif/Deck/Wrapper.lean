import Verif.LuaStack.Model
import Mathlib.Logic.Function.Basic

/-!
# Model of `Lua_Func_Wrapper`, `ristra/embedded/embed_lua.h` 897-953

A wrapper is what a program keeps of a function of its input file: a `std::shared_ptr` and a
reference, both to a `lua_result_t`.  Modelled are the objects (which are alive), the variables
holding results, and the wrappers with their copies.  `std::shared_ptr` keeps its object as long as
one copy lives.  An address is not used again: reading a dead object is undefined anyway.
-/

namespace Verif.Deck

open Verif.LuaStack

variable {F : Type}

/-- the program's objects -/
structure World (F : Type) where
  /-- the `lua_result_t` objects alive -/
  obj : Nat → Option (Result F)
  /-- the next address -/
  next : Nat
  /-- the wrappers ever made, `none` when destroyed: `plua_func_` and `lua_func_`, embed_lua.h:951-952 -/
  wraps : List (Option (Nat × Nat))
  /-- the variables of type `lua_result_t`: their addresses -/
  locals : List Nat

/-- what a program does with them -/
inductive Act (F : Type)
  /-- wrap a result held by a `std::unique_ptr` -/
  | take (r : Result F)
  /-- a new variable -/
  | var (r : Result F)
  /-- wrap a variable -/
  | wrap (j : Nat)
  /-- the variable goes out of scope -/
  | leave (j : Nat)
  /-- copy a wrapper -/
  | copy (i : Nat)
  /-- destroy a wrapper -/
  | drop (i : Nat)

/-- some living wrapper shares the object -/
def shared (ws : List (Option (Nat × Nat))) (a : Nat) : Bool := ws.any fun w => match w with
  | some (sh, _) => sh == a
  | none => false

/-- one step; `none` when it uses something dead.
`take`: embed_lua.h:938-941, the object passes from the unique pointer to the shared one, and the
reference is to it.  `wrap`: 944-947, the shared pointer gets a copy, and the reference is to the
argument.  `copy`: both members are copied.  `drop`: the last copy destroys the object -/
def act (w : World F) : Act F → Option (World F)
  | .take r => some { w with obj := Function.update w.obj w.next (some r), next := w.next + 1, wraps := w.wraps ++ [some (w.next, w.next)] }
  | .var r => some { w with obj := Function.update w.obj w.next (some r), next := w.next + 1, locals := w.locals ++ [w.next] }
  | .wrap j => match w.locals[j]? with
    | none => none
    | some ad => match w.obj ad with
      | none => none
      | some r => some { w with obj := Function.update w.obj w.next (some r), next := w.next + 1, wraps := w.wraps ++ [some (w.next, ad)] }
  | .leave j => match w.locals[j]? with
    | none => none
    | some ad => match w.obj ad with
      | none => none
      | some _ => some { w with obj := Function.update w.obj ad none }
  | .copy i => match w.wraps[i]? with
    | some (some p) => some { w with wraps := w.wraps ++ [some p] }
    | _ => none
  | .drop i => match w.wraps[i]? with
    | some (some (sh, _)) =>
      let ws := w.wraps.set i none
      some { w with wraps := ws, obj := if shared ws sh then w.obj else Function.update w.obj sh none }
    | _ => none

/-- a program -/
def acts (w : World F) : List (Act F) → Option (World F)
  | [] => some w
  | a :: as => match act w a with
    | none => none
    | some w' => acts w' as

/-- the result a call of wrapper `i` goes to, `operator()`, embed_lua.h:931-935: through the reference -/
def callee (w : World F) (i : Nat) : Option (Result F) := match w.wraps[i]? with
  | some (some (_, tg)) => w.obj tg
  | _ => none

/-- `operator()`, embed_lua.h:931-935 -/
def callWrap (L : Lua F) (w : World F) (i : Nat) (args : List (Arg F)) (t : Ty) : M F (CVal F) :=
  match callee w i with
  | none => undef
  | some r => do
    let q ← callResult L r args
    convert L q t

/-- nothing yet -/
def empty : World F := ⟨fun _ => none, 0, [], []⟩

/-! ## what a program means by it -/

/-- a wrapper stands for a function, or for whatever a variable holds -/
inductive Origin (F : Type)
  | own (r : Result F)
  | var (j : Nat)

/-- the wrappers and the variables, without objects -/
structure Plan (F : Type) where
  wraps : List (Option (Origin F))
  vars : List (Option (Result F))

/-- one step -/
def planned (p : Plan F) : Act F → Option (Plan F)
  | .take r => some { p with wraps := p.wraps ++ [some (.own r)] }
  | .var r => some { p with vars := p.vars ++ [some r] }
  | .wrap j => match p.vars[j]? with
    | some (some _) => some { p with wraps := p.wraps ++ [some (.var j)] }
    | _ => none
  | .leave j => match p.vars[j]? with
    | some (some _) => some { p with vars := p.vars.set j none }
    | _ => none
  | .copy i => match p.wraps[i]? with
    | some (some o) => some { p with wraps := p.wraps ++ [some o] }
    | _ => none
  | .drop i => match p.wraps[i]? with
    | some (some _) => some { p with wraps := p.wraps.set i none }
    | _ => none

/-- a program -/
def plannedAll (p : Plan F) : List (Act F) → Option (Plan F)
  | [] => some p
  | a :: as => match planned p a with
    | none => none
    | some p' => plannedAll p' as

/-- what wrapper `i` should call -/
def meant (p : Plan F) (i : Nat) : Option (Result F) := match p.wraps[i]? with
  | some (some (.own r)) => some r
  | some (some (.var j)) => (p.vars[j]?).getD none
  | _ => none

end Verif.Deck
