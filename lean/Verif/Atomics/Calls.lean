import Verif.Atomics.Model

/-!
# Model of the call forms of `ristra/atomics/src/atomics.h`

How a call written by the user — operator, member function or free function, with or without a
scheme override and memory orders — is resolved at compile time to one update: the macro tables
that name operators, functions and function objects, `get_scheme`, and the overloads of `apply`.
A call that does not compile has no result (`none`).

Not modelled: the `kokkos` scheme (compiled only under `ATOMICS_KOKKOS`, which the build never
defines), the `volatile` overloads (same text), the debug printing.
-/

namespace Verif.Atomics

/-- the scheme tags, atomics.h:77-105 -/
inductive Tag
  | cpp
  | strong
  | strongPun
  | weak
  | weakPun
  | lock
  | serial
deriving DecidableEq, Repr

/-- `std::memory_order` -/
inductive MemOrder
  | relaxed
  | consume
  | acquire
  | release
  | acqRel
  | seqCst
deriving DecidableEq, Repr

/-- the memory orders written in a call: none, `sync`, or `success, failure` -/
inductive Orders
  | none
  | one (sync : MemOrder)
  | two (success failure : MemOrder)
deriving DecidableEq, Repr

/-- the compound assignments of the language -/
inductive BinTok
  | plus
  | minus
  | times
  | div
  | mod
  | shl
  | shr
  | band
  | bor
  | bxor
deriving DecidableEq, Repr

/-- the operators of atomics.h:1679-1757 -/
inductive OpTok
  | assign (b : BinTok)
  | preInc
  | postInc
  | preDec
  | postDec
deriving DecidableEq, Repr

/-- the names of the functions and member functions, atomics.h:1318-1416 and 1584-1666 -/
inductive Name
  | add
  | sub
  | mul
  | div
  | mod
  | lshift
  | rshift
  | andeq
  | oreq
  | xoreq
  | min
  | max
  | inc
  | preinc
  | postinc
  | dec
  | predec
  | postdec
deriving DecidableEq, Repr

/-- the function objects, atomics.h:1190-1305 -/
inductive Functor
  | addequal
  | subequal
  | mulequal
  | divequal
  | modequal
  | lshiftequal
  | rshiftequal
  | andequal
  | orequal
  | xorequal
  | minequal
  | maxequal
  | preincclass
  | postincclass
  | predecclass
  | postdecclass
deriving DecidableEq, Repr

/-- the members of `std::atomic` that are used -/
inductive Fetch
  | add
  | sub
  | band
  | bor
  | bxor
deriving DecidableEq, Repr

/-- What the language and `std::atomic` offer for the types `T` and `X`; `none` where an
expression does not compile.  `assign b` is `lhs op= val`; `ltXT`, `ltTX` are `b < a` and
`a < b` of `mineq`, `maxeq`, and `conv` is `A(b)`; `fetch` includes the conversion of the
argument. -/
structure Lang (T X : Type) where
  assign : BinTok → Option (T → X → T)
  inc : Option (T → T)
  dec : Option (T → T)
  ltXT : Option (X → T → Bool)
  ltTX : Option (T → X → Bool)
  conv : Option (X → T)
  fetch : Fetch → Option (T → X → T)
  stdInc : Option (T → T)
  stdDec : Option (T → T)

/-- what the macros of one `#include "atomics-macro-class*.h"` define: `atomics_op`,
`atomics_fun`, `atomics_pre`, `atomics_post` -/
inductive Body
  | op (b : BinTok)
  | mineq
  | maxeq
  | pre (down : Bool)
  | post (down : Bool)
deriving DecidableEq, Repr

/-- the macro blocks of atomics.h:1190-1305: `atomics_op`/`atomics_fun`/`atomics_pre`/`atomics_post` -/
def Functor.body : Functor → Body
  | .addequal => .op .plus
  | .subequal => .op .minus
  | .mulequal => .op .times
  | .divequal => .op .div
  | .modequal => .op .mod
  | .lshiftequal => .op .shl
  | .rshiftequal => .op .shr
  | .andequal => .op .band
  | .orequal => .op .bor
  | .xorequal => .op .bxor
  | .minequal => .mineq
  | .maxequal => .maxeq
  | .preincclass => .pre false
  | .postincclass => .post false
  | .predecclass => .pre true
  | .postdecclass => .post true

/-- `atomics_cpp` in the same blocks -/
def Functor.cpp : Functor → Option Fetch
  | .addequal => some .add
  | .subequal => some .sub
  | .andequal => some .band
  | .orequal => some .bor
  | .xorequal => some .bxor
  | _ => none

/-- `template<class T> T operator()(T &lhs)`, atomics-macro-class.h:84-108 and
atomics-macro-class-prepost.h:84-99.  The argument is there exactly for the function
objects of atomics-macro-class.h. -/
def plain {T X : Type} (L : Lang T X) (F : Functor) (arg : Option X) : Option (T → T × T) :=
  match F.body, arg with
  | .op b, some x => (L.assign b).map fun g => binary (g · x)
  | .mineq, some x =>
    match L.ltXT, L.conv with
    | some lt, some cv => some (binary fun a => if lt x a then cv x else a)
    | _, _ => none
  | .maxeq, some x =>
    match L.ltTX, L.conv with
    | some lt, some cv => some (binary fun a => if lt a x then cv x else a)
    | _, _ => none
  | .pre down, none => (if down then L.dec else L.inc).map preOp
  | .post down, none => (if down then L.dec else L.inc).map postOp
  | _, _ => none

/-- the memory orders with which the update is performed: a fetch with one order, a
compare-exchange with one or two, or no atomic instruction -/
inductive Used
  | rmw (o : MemOrder)
  | cas (o : MemOrder)
  | cas2 (success failure : MemOrder)
  | no
deriving DecidableEq, Repr

/-- the `cpp` overloads: atomics-macro-class.h:22-39, where `sync` defaults to
`memory_order_seq_cst`; atomics-macro-class-prepost.h:20-38, which takes no order; and
the two forms of `apply`, atomics.h:481-502 -/
def nativeApply {T X : Type} (L : Lang T X) (F : Functor) (arg : Option X) (o : Orders) :
    Option (Scheme × (T → T × T) × Used) :=
  match F.body, arg, o with
  | .pre down, none, .none => (if down then L.stdDec else L.stdInc).map fun g => (.unary, preOp g, .rmw .seqCst)
  | .post down, none, .none => (if down then L.stdDec else L.stdInc).map fun g => (.unary, postOp g, .rmw .seqCst)
  | .pre _, _, _ => none
  | .post _, _, _ => none
  | _, some x, .none => (F.cpp.bind L.fetch).map fun g => (.native, binary (g · x), .rmw .seqCst)
  | _, some x, .one s => (F.cpp.bind L.fetch).map fun g => (.native, binary (g · x), .rmw s)
  | _, _, _ => none

/-- the overloads of `apply` for the compare-exchange schemes, atomics.h:545-602 and 765-807: the
order defaults to `memory_order_seq_cst` -/
def casUsed : Orders → Used
  | .none => .cas .seqCst
  | .one s => .cas s
  | .two s f => .cas2 s f

/-- the sizes of the integer types -/
structure Sizes where
  schar : Nat
  short : Nat
  int : Nat
  long : Nat
  llong : Nat

/-- `static_cast` targets of the punned schemes -/
inductive IntTy
  | schar
  | short
  | int
  | long
  | llong
deriving DecidableEq, Repr

/-- `sizeof` of each of the types -/
def Sizes.size (z : Sizes) : IntTy → Nat
  | .schar => z.schar
  | .short => z.short
  | .int => z.int
  | .long => z.long
  | .llong => z.llong

/-- the `std::enable_if` conditions of the five overloads, atomics.h:723-750 (strong) and 895-921
(weak), for a type of size `n`: those that remain -/
def punOverloads (z : Sizes) (n : Nat) : List IntTy :=
  (if n = z.llong ∧ n ≠ z.long then [.llong] else []) ++
  (if n = z.long ∧ n ≠ z.int then [.long] else []) ++
  (if n = z.int ∧ n ≠ z.short then [.int] else []) ++
  (if n = z.short ∧ n ≠ z.schar then [.short] else []) ++
  (if n = z.schar then [.schar] else [])

/-- overload resolution among them: all are equally good, so there must be exactly one -/
def punned (z : Sizes) (n : Nat) : Option IntTy :=
  match punOverloads z n with
  | [p] => some p
  | _ => none

/-- the overloads of `internal::apply`, atomics.h:481-981: which exist for a scheme and a number of
orders, and what they run -/
def applyCall {T X : Type} (L : Lang T X) (z : Sizes) (n : Nat) (tag : Tag) (F : Functor) (arg : Option X) (o : Orders) :
    Option (Scheme × (T → T × T) × Used) :=
  match tag with
  | .cpp => nativeApply L F arg o
  | .strong => (plain L F arg).map fun f => (.strong, f, casUsed o)
  | .weak => (plain L F arg).map fun f => (.weak, f, casUsed o)
  | .strongPun => if (punned z n).isSome then (plain L F arg).map fun f => (.strong, f, casUsed o) else none
  | .weakPun => if (punned z n).isSome then (plain L F arg).map fun f => (.weak, f, casUsed o) else none
  | .lock => if o = .none then (plain L F arg).map fun f => (.lock, f, .no) else none
  | .serial => if o = .none then (plain L F arg).map fun f => (.serial, f, .no) else none

/-- `atomics_fun` and `atomics_class` of atomics.h:1318-1416 -/
def Name.functor : Name → Functor
  | .add => .addequal
  | .sub => .subequal
  | .mul => .mulequal
  | .div => .divequal
  | .mod => .modequal
  | .lshift => .lshiftequal
  | .rshift => .rshiftequal
  | .andeq => .andequal
  | .oreq => .orequal
  | .xoreq => .xorequal
  | .min => .minequal
  | .max => .maxequal
  | .inc => .preincclass
  | .preinc => .preincclass
  | .postinc => .postincclass
  | .dec => .predecclass
  | .predec => .predecclass
  | .postdec => .postdecclass

/-- `atomics_op` and `atomics_fun` of atomics.h:1679-1757 -/
def OpTok.name : OpTok → Name
  | .assign .plus => .add
  | .assign .minus => .sub
  | .assign .times => .mul
  | .assign .div => .div
  | .assign .mod => .mod
  | .assign .shl => .lshift
  | .assign .shr => .rshift
  | .assign .band => .andeq
  | .assign .bor => .oreq
  | .assign .bxor => .xoreq
  | .preInc => .preinc
  | .postInc => .postinc
  | .preDec => .predec
  | .postDec => .postdec

/-- a call as the user writes it: `x += v`, `x.add<S>(v, orders)`, `add<S>(x, v, orders)` -/
inductive Call (X : Type)
  | operator (t : OpTok) (arg : Option X)
  | member (n : Name) (s : Option Tag) (arg : Option X) (o : Orders)
  | function (n : Name) (s : Option Tag) (arg : Option X) (o : Orders)

/-- `get_scheme`, atomics.h:219-231: the override unless it is `char` (not given) -/
def pickTag (own : Tag) : Option Tag → Tag
  | some s => s
  | none => own

/-- What a call on a variable of scheme `own` compiles to.  atomics-macro-function*.h: the
function object of the name is applied under the chosen scheme.  atomics-macro-member*.h:
`template<class S = SCHEME, ...>` forwards to the function with `S`.
atomics-macro-operator*.h: `return atom.atomics_fun(val);`. -/
def compile {T X : Type} (L : Lang T X) (z : Sizes) (n : Nat) (own : Tag) : Call X → Option (Scheme × (T → T × T) × Used)
  | .function nm s arg o => applyCall L z n (pickTag own s) nm.functor arg o
  | .member nm s arg o => applyCall L z n (pickTag own (some (s.getD own))) nm.functor arg o
  | .operator t arg => applyCall L z n (pickTag own (some own)) t.name.functor arg .none

/-- `compare_exchange_strong(old, neu, sync)` uses for the failed case `sync` without its
release part -/
def failureOrder : MemOrder → MemOrder
  | .acqRel => .acquire
  | .release => .relaxed
  | o => o

/-- the precondition of `compare_exchange`: a failed exchange stores nothing, so its order may
not be a releasing one -/
def Used.defined : Used → Bool
  | .cas o => failureOrder o != .release && failureOrder o != .acqRel
  | .cas2 _ f => f != .release && f != .acqRel
  | _ => true

end Verif.Atomics
