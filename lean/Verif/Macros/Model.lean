/-!
# Model of the statement macros of `ristra/assertions/errors.h`

What the macros expand to, as tokens, and the part of the C++ grammar that decides how `if`,
`else`, `;` and braces group.  Conditions and simple statements are numbered.  A `do { ... }
while(0)` and an expression are alike here: both need a semicolon to become a statement.
-/

namespace Verif.Macros

/-- a condition, possibly negated: `if ( c )`, `if ( ! (c) )` -/
structure Cond where
  neg : Bool
  c : Nat
deriving DecidableEq

/-- tokens after preprocessing: `if (c)`, `else`, a statement, `{`, `}`, `;` -/
inductive Tok where
  | ifT (c : Cond)
  | elseT
  | act (a : Nat)
  | semi
  | lbrace
  | rbrace
deriving DecidableEq

/-- syntax trees of statements; `nil` and `cons` make the contents of a block -/
inductive Stmt where
  | act (a : Nat)
  | empty
  | block (b : Stmt)
  | ifThen (c : Cond) (s : Stmt)
  | ifElse (c : Cond) (s t : Stmt)
  | nil
  | cons (s b : Stmt)
deriving DecidableEq

/-- The C++ grammar ([stmt.select]: an `else` belongs to the nearest `if` that can take it).
`parse n true` reads one statement, `parse n false` statements up to a closing brace or the
end; `n` bounds the depth. -/
def parse : Nat → Bool → List Tok → Option (Stmt × List Tok)
  | 0, _, _ => none
  | _ + 1, true, .act a :: .semi :: r => some (.act a, r)
  | _ + 1, true, .semi :: r => some (.empty, r)
  | n + 1, true, .lbrace :: r =>
    match parse n false r with
    | some (b, .rbrace :: r') => some (.block b, r')
    | _ => none
  | n + 1, true, .ifT c :: r =>
    match parse n true r with
    | some (s, .elseT :: r') =>
      match parse n true r' with
      | some (t, r'') => some (.ifElse c s t, r'')
      | none => none
    | some (s, r') => some (.ifThen c s, r')
    | none => none
  | _ + 1, true, _ => none
  | _ + 1, false, [] => some (.nil, [])
  | _ + 1, false, .rbrace :: r => some (.nil, .rbrace :: r)
  | n + 1, false, ts =>
    match parse n true ts with
    | some (s, r) =>
      match parse n false r with
      | some (b, r') => some (.cons s b, r')
      | none => none
    | none => none

/-- what a statement does: the simple statements executed, in order, and whether the last one
left by an exception; `v` gives the conditions, `thr` says which simple statements throw -/
def Stmt.run (v : Nat → Bool) (thr : Nat → Bool) : Stmt → List Nat × Bool
  | .act a => ([a], thr a)
  | .empty => ([], false)
  | .block b => b.run v thr
  | .ifThen c s => if v c.c != c.neg then s.run v thr else ([], false)
  | .ifElse c s t => if v c.c != c.neg then s.run v thr else t.run v thr
  | .nil => ([], false)
  | .cons s b =>
    let r := s.run v thr
    if r.2 then r else (r.1 ++ (b.run v thr).1, (b.run v thr).2)

/-! ## The program as written -/

/-- statements as the user writes them, each macro followed by a semicolon -/
inductive Src where
  | act (a : Nat)
  /-- `THROW_RUNTIME_ERROR(msg);` and the others, errors.h:35-74 -/
  | throwM (a : Nat)
  /-- `assert_true(c, msg);`, errors.h:81-83; `a` is the error raised -/
  | assertM (c : Nat) (a : Nat)
  /-- `short_warning(msg);`, errors.h:89-90 -/
  | warnM (a : Nat)
  | block (b : Src)
  | ifThen (c : Nat) (s : Src)
  | ifElse (c : Nat) (s t : Src)
  | nil
  | cons (s b : Src)
deriving DecidableEq

/-- the tokens after macro expansion: `THROW_...` is one `do ... while(0)` (errors.h:36-40);
`assert_true` is an `if` without braces (errors.h:82-83); `short_warning` ends in a semicolon of
its own (errors.h:90) -/
def Src.expand : Src → List Tok
  | .act a => [.act a, .semi]
  | .throwM a => [.act a, .semi]
  | .assertM c a => [.ifT ⟨true, c⟩, .act a, .semi]
  | .warnM a => [.act a, .semi, .semi]
  | .block b => .lbrace :: (b.expand ++ [.rbrace])
  | .ifThen c s => .ifT ⟨false, c⟩ :: s.expand
  | .ifElse c s t => .ifT ⟨false, c⟩ :: (s.expand ++ .elseT :: t.expand)
  | .nil => []
  | .cons s b => s.expand ++ b.expand

end Verif.Macros
