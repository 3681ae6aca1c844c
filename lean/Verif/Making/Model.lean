/-!
# Model of making and assigning arrays: `ristra/math/array.h` (`math::array`), `ristra/math/multi_array.h`
(`math::multi_array`) and `ristra/utils/dimensioned_array.h` (`dimensioned_array__`)

Which constructor or assignment runs is decided by C++ overload resolution, modelled here as: the
candidates the class declares, which of them can take the arguments and with what conversions, and
the rules for the best of them.  Arguments are numbers of any arithmetic type and arrays of the same
template and extents with any element type.  An array's contents is a list of elements, `none` for
an indeterminate one.

Not modelled: `A a;`, which leaves every element indeterminate (array.h:91, multi_array.h:185,
dimensioned_array.h:77), arguments of other types, `std::initializer_list` objects as arguments, and the copy
constructor or assignment reached through another conversion, which is never the best candidate.
-/

namespace Verif.Making

/-- the arithmetic types and their conversions, as the C++ standard has them -/
structure Types (Ty V : Type) where
  /-- converts implicitly -/
  implicit : Ty → Ty → Bool
  /-- converts with `static_cast` -/
  static : Ty → Ty → Bool
  /-- the value after conversion, `none` where the conversion is undefined -/
  cast : Ty → Ty → V → Option V
  /-- a conversion is narrowing; the value is given for a constant -/
  narrows : Ty → Ty → Option V → Bool
  /-- the zero of a type -/
  zero : Ty → V
  implicit_self : ∀ t, implicit t t = true
  static_of : ∀ t u, implicit t u = true → static t u = true
  cast_self : ∀ t v, cast t t v = some v
  narrows_self : ∀ t v, narrows t t v = false

/-- an argument -/
inductive Arg (Ty V : Type)
  /-- a number, constant or not -/
  | num (t : Ty) (v : V) (const : Bool)
  /-- an array of the same template and extents -/
  | arr (t : Ty) (xs : List V)

/-- the three classes -/
inductive Cls
  /-- `math::array<T, n>` -/
  | math
  /-- `math::multi_array<T, N...>` with `n` elements -/
  | multi
  /-- `dimensioned_array__<T, n, ..>` -/
  | dim
  deriving DecidableEq

/-- what becomes of it -/
inductive Made (V : Type)
  /-- does not compile -/
  | illFormed
  /-- an assertion fails -/
  | assertFail
  /-- undefined behaviour -/
  | ub
  /-- the elements -/
  | ok (xs : List (Option V))
  deriving DecidableEq

/-- the constructors and assignments taking arguments -/
inductive Cand
  /-- from the class itself: array.h:94, multi_array.h:188, dimensioned_array.h:80 and 169-179; the
  copy assignments of the other two are implicit -/
  | copy
  /-- from the template with another element type: array.h:98-103 and 332-337, multi_array.h:191-195
  and 450-455 -/
  | conv
  /-- from as many arguments as elements: array.h:107-117, dimensioned_array.h:98-108 -/
  | pack
  /-- from one value of the element type: array.h:121-127, dimensioned_array.h:114-119 and 185-195 -/
  | value
  /-- from one value of any type: multi_array.h:199-204 (constructor), array.h:342-346 and
  multi_array.h:459-463 (assignments) -/
  | any
  /-- from an initializer list: multi_array.h:209-216, dimensioned_array.h:86-92 -/
  | list
  deriving DecidableEq

variable {Ty V : Type} [DecidableEq Ty]

/-- the constructors of a class but the initializer-list one -/
def ctors : Cls → List Cand
  | .math => [.copy, .conv, .pack, .value]
  | .multi => [.copy, .conv, .any]
  | .dim => [.copy, .pack, .value]

/-- the assignments of a class -/
def assigns : Cls → List Cand
  | .math => [.copy, .conv, .any]
  | .multi => [.copy, .conv, .any]
  | .dim => [.copy, .value]

/-- whether a class has an initializer-list constructor -/
def hasList : Cls → Bool
  | .math => false
  | .multi => true
  | .dim => true

/-- whether the candidate is a template -/
def isTemplate : Cand → Bool
  | .conv => true
  | .pack => true
  | .any => true
  | _ => false

/-- partial ordering of the templates: `array<T2,N> const &` is more specialised than `T2 const &` -/
def special : Cand → Nat
  | .conv => 1
  | _ => 0

/-- a number of the element type: `are_type__`, dimensioned_array.h:30-45 -/
def exactly (T : Ty) : Arg Ty V → Bool
  | .num t _ _ => decide (t = T)
  | .arr _ _ => false

/-- a number that converts to the element type -/
def takes (E : Types Ty V) (T : Ty) : Arg Ty V → Bool
  | .num t _ _ => E.implicit t T
  | .arr _ _ => false

/-- the conversion a candidate needs for its arguments: 0 none, 1 a standard conversion; `none` when
it cannot take them.  `pack` of `dimensioned_array__` asks for the element type exactly
(dimensioned_array.h:100-101), `pack` of `math::array` for two or more arguments (array.h:109-111) -/
def rank (E : Types Ty V) (cls : Cls) (T : Ty) (n : Nat) (c : Cand) (args : List (Arg Ty V)) : Option Nat :=
  match c, args with
  | .copy, [.arr t _] => if t = T then some 0 else none
  | .conv, [.arr _ _] => some 0
  | .any, [_] => some 0
  | .value, [.num t _ _] => if t = T then some 0 else if E.implicit t T then some 1 else none
  | .pack, args => match cls with
    | .dim => if args.length = n ∧ args.all (exactly T) = true then some 0 else none
    | _ => if args.length = n ∧ 2 ≤ args.length then some 0 else none
  | _, _ => none

/-- one candidate is better than another -/
def better (E : Types Ty V) (cls : Cls) (T : Ty) (n : Nat) (args : List (Arg Ty V)) (c c' : Cand) : Bool :=
  match rank E cls T n c args, rank E cls T n c' args with
  | some r, some r' => decide (r < r') || (decide (r = r') &&
      ((!isTemplate c && isTemplate c') || (isTemplate c && isTemplate c' && decide (special c' < special c))))
  | some _, none => true
  | none, _ => false

/-- the best candidate -/
def best (E : Types Ty V) (cls : Cls) (T : Ty) (n : Nat) (cs : List Cand) (args : List (Arg Ty V)) : Option Cand :=
  cs.find? fun c => (rank E cls T n c args).isSome && cs.all fun c' => decide (c' = c) || better E cls T n args c c'

/-- an implicit conversion of a number to the element type -/
def convert (E : Types Ty V) (T : Ty) : Arg Ty V → Made V
  | .num t v _ => if E.implicit t T then (match E.cast t T v with
      | some w => .ok [some w]
      | none => .ub) else .illFormed
  | .arr _ _ => .illFormed

/-- `static_cast` of a number to the element type -/
def castTo (E : Types Ty V) (T : Ty) : Arg Ty V → Made V
  | .num t v _ => if E.static t T then (match E.cast t T v with
      | some w => .ok [some w]
      | none => .ub) else .illFormed
  | .arr _ _ => .illFormed

/-- two parts after each other; ill-formed if one is -/
def join : Made V → Made V → Made V
  | .illFormed, _ => .illFormed
  | _, .illFormed => .illFormed
  | .ok x, .ok xs => .ok (x ++ xs)
  | _, _ => .ub

/-- the elements one after the other -/
def collect : List (Made V) → Made V
  | [] => .ok []
  | m :: ms => join m (collect ms)

/-- `fill`: array.h:300-304, multi_array.h:417-420, `std::array::fill`, dimensioned_array.h:190-192 -/
def fillWith (n : Nat) : Made V → Made V
  | .ok [x] => .ok (List.replicate n x)
  | m => m

/-- an argument's conversion is narrowing -/
def narrow (E : Types Ty V) (T : Ty) : Arg Ty V → Bool
  | .num t v c => E.narrows t T (if c then some v else none)
  | .arr _ _ => false

/-- the body of a constructor or assignment.  `conv`: in array.h:102 and 335, multi_array.h:452-453
the private elements of another class are named, which is an error; multi_array.h:194 copies through
iterators.  `pack`: `static_cast` in array.h:114 -/
def body (E : Types Ty V) (cls : Cls) (assigning : Bool) (T : Ty) (n : Nat) (c : Cand) (args : List (Arg Ty V)) : Made V :=
  match c, args with
  | .copy, [.arr _ xs] => .ok (xs.map some)
  | .conv, [.arr t xs] =>
    if t = T then .ok (xs.map some)
    else if cls = .multi ∧ assigning = false then collect (xs.map fun x => convert E T (.num t x false))
    else .illFormed
  | .any, [a] => fillWith n (convert E T a)
  | .value, [a] => fillWith n (convert E T a)
  | .pack, args => collect (args.map (castTo E T))
  | _, _ => .illFormed

/-- `std::copy` of a list into the elements: the rest stays as it is, writing beyond is undefined -/
def copyInto (n : Nat) : Made V → Made V
  | .ok xs => if xs.length ≤ n then .ok (xs ++ List.replicate (n - xs.length) none) else .ub
  | m => m

/-- the initializer-list constructors: multi_array.h:209-216 with 434-438, dimensioned_array.h:86-92.
`checks`: `NDEBUG` is not defined -/
def listBody (E : Types Ty V) (cls : Cls) (checks : Bool) (T : Ty) (n : Nat) (args : List (Arg Ty V)) : Made V :=
  if args.any (narrow E T) then .illFormed
  else match collect (args.map (convert E T)) with
    | .ok xs =>
      if cls = .multi ∧ args.length = 1 then fillWith n (.ok xs)
      else if checks = true ∧ args.length ≠ n then .assertFail
      else copyInto n (.ok xs)
    | m => m

/-- `A a(x, ...)`, with at least one argument, and `A a = x` -/
def paren (E : Types Ty V) (cls : Cls) (T : Ty) (n : Nat) (args : List (Arg Ty V)) : Made V :=
  match best E cls T n (ctors cls) args with
  | some c => body E cls false T n c args
  | none => .illFormed

/-- `A a{x, ...}` and `A a = {x, ...}`: empty braces give zeros (the default constructors are not
user-provided); an initializer-list constructor that can take the arguments is preferred, then the
others; narrowing is an error -/
def brace (E : Types Ty V) (cls : Cls) (checks : Bool) (T : Ty) (n : Nat) (args : List (Arg Ty V)) : Made V :=
  match args with
  | [] => .ok (List.replicate n (some (E.zero T)))
  | args =>
    if hasList cls = true ∧ args.all (takes E T) = true then listBody E cls checks T n args
    else match best E cls T n (ctors cls) args with
      | some .value => if args.any (narrow E T) then .illFormed else body E cls false T n .value args
      | some c => body E cls false T n c args
      | none => .illFormed

/-- `a = x` -/
def assign (E : Types Ty V) (cls : Cls) (T : Ty) (n : Nat) (x : Arg Ty V) : Made V :=
  match best E cls T n (assigns cls) [x] with
  | some c => body E cls true T n c [x]
  | none => .illFormed

/-- an array made first and copied: copying an indeterminate element is undefined -/
def throughCopy : Made V → Made V
  | .ok xs => if xs.all Option.isSome then .ok xs else .ub
  | m => m

/-- `a = {x, ...}`: templates cannot be deduced from braces, so the array is made and copied, but
`dimensioned_array__` prefers its assignment from one value for no and for one number -/
def assignBrace (E : Types Ty V) (cls : Cls) (checks : Bool) (T : Ty) (n : Nat) (args : List (Arg Ty V)) : Made V :=
  match cls, args with
  | .dim, [] => .ok (List.replicate n (some (E.zero T)))
  | .dim, [.num t v c] =>
    if E.implicit t T then (if narrow E T (.num t v c) then .illFormed else body E .dim true T n .value [.num t v c])
    else throughCopy (brace E .dim checks T n [.num t v c])
  | cls, args => throughCopy (brace E cls checks T n args)

end Verif.Making
