/-!
# Design-by-contract checks: ristra/assertions/dbc.h, dbc_impl.h, dbc_impl.cc,
ristra-config.h.in and the options in CMakeLists.txt

An operand of a check is an expression of the calling program: it may read and change the
program's state (`S`).  Operands are evaluated from left to right (C++ leaves the order open; the
theorems about several operands use operands that change nothing, or one that does).  Comparison
operators are those of the operand type and may be any functions to `bool`.
Not modelled: the type deduction of the macros' templates, localised number formatting.
-/

namespace Verif.Dbc

/-- where a check stands: `__FILE__`, `__FUNCTION__`, `__LINE__` -/
structure Place where
  file : String
  func : String
  line : Nat
deriving DecidableEq, Repr

/-- the program's state and what has been written to `*p_str` -/
structure World (S : Type) where
  prog : S
  err : String
deriving DecidableEq, Repr

/-- a statement returns or throws `std::logic_error(msg)` -/
inductive Res (S α : Type)
  | ok (a : α) (w : World S)
  | logicError (msg : String) (w : World S)
deriving DecidableEq, Repr

/-- computations -/
def Exec (S α : Type) : Type := World S → Res S α

instance {S : Type} : Monad (Exec S) where
  pure a := fun w => .ok a w
  bind m f := fun w => match m w with
    | .ok a w' => f a w'
    | .logicError e w' => .logicError e w'

/-- an expression of the program -/
def Expr (S α : Type) : Type := S → α × S

/-- evaluating it -/
def eval {S α : Type} (e : Expr S α) : Exec S α := fun w => .ok (e w.prog).1 { w with prog := (e w.prog).2 }

/-- an expression that only reads -/
def Expr.reads {S α : Type} (e : Expr S α) : Prop := ∀ s, (e s).2 = s

/-! ## actions -/

/-- `dbc_action`, dbc.h:79-88 -/
inductive Action
  | throwException
  | notify
  | doNothing
deriving DecidableEq, Repr

/-- `build_message`, dbc_impl.cc:18-25 -/
def buildMessage (cond : String) (p : Place) : String :=
  p.file ++ ":" ++ toString p.line ++ ":" ++ p.func ++ " assertion '" ++ cond ++ "' failed.\n"

/-- `throw_exception`, `notify`, `do_nothing`, dbc.h:58-76 -/
def Action.run {S : Type} (a : Action) (cond : String) (p : Place) : Exec S Unit :=
  match a with
  | .throwException => fun w => .logicError (buildMessage cond p) w
  | .notify => fun w => .ok () { w with err := w.err ++ buildMessage cond p }
  | .doNothing => fun w => .ok () w

/-- `assertf`, dbc_impl.cc:27-34 -/
def assertf {S : Type} (cond : Bool) (condStr : String) (p : Place) (action : Action) : Exec S Bool := do
  if !cond then action.run condStr p
  pure cond

/-- `assertf_l`, dbc_impl.h:42-51 -/
def assertfL {S : Type} (cond : Bool) (gen : Unit → String) (p : Place) (action : Action) : Exec S Bool := do
  if !cond then action.run (gen ()) p
  pure cond

/-! ## the checks -/

/-- comparison and printing of the operand type; the operators need not be consistent -/
structure Ops (T : Type) where
  eq : T → T → Bool
  ne : T → T → Bool
  lt : T → T → Bool
  gt : T → T → Bool
  ge : T → T → Bool
  show_ : T → String

variable {S T : Type}

/-- `equal_func`, dbc.h:91-105 -/
def equalFunc (O : Ops T) (act : Action) (a b : T) (aName bName : String) (p : Place) : Exec S Bool :=
  assertfL (O.eq a b) (fun _ => aName ++ " != " ++ bName) p act

/-- `not_equal_func`, dbc.h:108-122 -/
def notEqualFunc (O : Ops T) (act : Action) (a b : T) (aName bName : String) (p : Place) : Exec S Bool :=
  assertfL (O.ne a b) (fun _ => aName ++ " expected != " ++ bName) p act

/-- `in_open_range_func`, dbc.h:125-139 -/
def inOpenRangeFunc (O : Ops T) (act : Action) (x min max : T) (name : String) (p : Place) : Exec S Bool :=
  assertfL (O.gt x min && O.lt x max)
    (fun _ => name ++ " (" ++ O.show_ x ++ ") was not in range (" ++ O.show_ min ++ "," ++ O.show_ max ++ ")") p act

/-- `greater_than_func`, dbc.h:141-153 -/
def greaterThanFunc (O : Ops T) (act : Action) (x min : T) (name : String) (p : Place) : Exec S Bool :=
  assertfL (O.gt x min) (fun _ => name ++ " (" ++ O.show_ x ++ ") <= " ++ O.show_ min) p act

/-- `greater_equal_func`, dbc.h:155-167 -/
def greaterEqualFunc (O : Ops T) (act : Action) (x min : T) (name : String) (p : Place) : Exec S Bool :=
  assertfL (O.ge x min) (fun _ => name ++ " (" ++ O.show_ x ++ ") < " ++ O.show_ min) p act

/-- `less_than_func`, dbc.h:169-181 -/
def lessThanFunc (O : Ops T) (act : Action) (x max : T) (name : String) (p : Place) : Exec S Bool :=
  assertfL (O.lt x max) (fun _ => name ++ " (" ++ O.show_ x ++ ") >= " ++ O.show_ max) p act

/-- `one_of_func`, dbc.h:183-195, with the container's `count` -/
def oneOfFunc (act : Action) (key : T) (count : T → Nat) (name : String) (p : Place) : Exec S Bool :=
  assertfL (decide (0 < count key)) (fun _ => name ++ " not in set") p act

/-! ## the macros -/

/-- `RISTRA_REQUIRE_ON` and which action the macros select -/
structure Cfg where
  requireOn : Bool
  action : Action
deriving DecidableEq, Repr

/-- a use of a macro, with the operand expressions and their text -/
inductive Check (S T : Type)
  | insist (c : Expr S Bool) (text : String)
  | require (c : Expr S Bool) (text : String)
  | check (c : Expr S Bool) (text : String)
  | ensure (c : Expr S Bool) (text : String)
  | equal (a b : Expr S T) (aText bText : String)
  | notEqual (a b : Expr S T) (aText bText : String)
  | inOpenRange (x mn mx : Expr S T) (text : String)
  | greaterThan (x mn : Expr S T) (text : String)
  | greaterEqual (x mn : Expr S T) (text : String)
  | lessThan (x mx : Expr S T) (text : String)
  | oneOf (x : Expr S T) (count : Expr S (T → Nat)) (text : String)

/-- what a macro expands to, dbc.h:199-265: the value is `none` where it expands to nothing -/
def expand (O : Ops T) (cfg : Cfg) (p : Place) : Check S T → Exec S (Option Bool)
  | .insist c t => do let c ← eval c; return some (← assertf c t p cfg.action)
  | .require c t | .check c t | .ensure c t =>
    if cfg.requireOn then do let c ← eval c; return some (← assertf c t p cfg.action) else pure none
  | .equal a b s t =>
    if cfg.requireOn then do
      let a ← eval a; let b ← eval b
      return some (← equalFunc O cfg.action a b s t p)
    else do let a ← eval a; let b ← eval b; return some (O.eq a b)
  | .notEqual a b s t =>
    if cfg.requireOn then do
      let a ← eval a; let b ← eval b
      return some (← notEqualFunc O cfg.action a b s t p)
    else do let a ← eval a; let b ← eval b; return some (O.ne a b)
  | .inOpenRange x mn mx t =>
    if cfg.requireOn then do
      let x ← eval x; let mn ← eval mn; let mx ← eval mx
      return some (← inOpenRangeFunc O cfg.action x mn mx t p)
    else do
      -- `((x) > (mn) && (x) < (mx))`: `x` is evaluated again for the second comparison
      let x1 ← eval x; let mn ← eval mn
      if O.gt x1 mn then
        let x2 ← eval x; let mx ← eval mx
        return some (O.lt x2 mx)
      else return some false
  | .greaterThan x mn t =>
    if cfg.requireOn then do
      let x ← eval x; let mn ← eval mn
      return some (← greaterThanFunc O cfg.action x mn t p)
    else do let x ← eval x; let mn ← eval mn; return some (O.gt x mn)
  | .greaterEqual x mn t =>
    if cfg.requireOn then do
      let x ← eval x; let mn ← eval mn
      return some (← greaterEqualFunc O cfg.action x mn t p)
    else do let x ← eval x; let mn ← eval mn; return some (O.ge x mn)
  | .lessThan x mx t =>
    if cfg.requireOn then do
      let x ← eval x; let mx ← eval mx
      return some (← lessThanFunc O cfg.action x mx t p)
    else do let x ← eval x; let mx ← eval mx; return some (O.lt x mx)
  | .oneOf x count t =>
    if cfg.requireOn then do
      let x ← eval x; let count ← eval count
      return some (← oneOfFunc cfg.action x count t p)
    else pure (some true)

/-- statements one after the other: a throw ends them -/
def runAll (O : Ops T) (cfg : Cfg) : List (Place × Check S T) → Exec S Unit
  | [] => pure ()
  | (p, c) :: cs => do let _ ← expand O cfg p c; runAll O cfg cs

/-! ## the build -/

/-- a value CMake takes as true for `#cmakedefine`; simplified: the false values in capitals only -/
def cmakeTrue (v : Option String) : Bool :=
  match v with
  | none => false
  | some s => !(s == "" || s == "0" || s == "OFF" || s == "NO" || s == "FALSE" || s == "N" || s == "IGNORE" || s == "NOTFOUND")

/-- the macros ristra-config.h.in lines 40-44 may define, each from the CMake variable of the
same name -/
def configHeader (vars : String → Option String) (macro_ : String) : Bool :=
  (macro_ == "RISTRA_DBC_THROW" || macro_ == "RISTRA_DBC_NOTIFY" || macro_ == "RISTRA_DBC_REQUIRE") && cmakeTrue (vars macro_)

/-- CMakeLists.txt:107-118: the variables set for given values of the documented options
`RISTRA_DBC_ACTION` and `RISTRA_DBC_REQUIRE` -/
def cmakeVars (action require : String) (user : String → Option String) : String → Option String := fun v =>
  if v = "RISTRA_DBC_ACTION" then some action
  else if v = "RISTRA_DBC_REQUIRE" then some require
  else user v

/-- dbc.h:79-88 and 206, from the macros that are defined by the configuration header or on
the command line -/
def cfgOf (header cmdline : String → Bool) : Cfg :=
  let defined m := header m || cmdline m
  ⟨defined "RISTRA_REQUIRE_ON",
   if defined "RISTRA_DBC_THROW" then .throwException else if defined "RISTRA_DBC_NOTIFY" then .notify else .doNothing⟩

/-- what the documentation in dbc.h:37-51 promises for the options -/
def documented (action require : String) : Cfg :=
  ⟨cmakeTrue (some require),
   if action = "throw" then .throwException else if action = "notify" then .notify else .doNothing⟩

end Verif.Dbc
