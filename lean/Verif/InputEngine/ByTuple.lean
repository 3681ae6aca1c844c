import Verif.InputEngine.Demo
import Verif.Dbc.Model

/-!
# Doing something for every type of a tuple; the report of what is unresolved; who owns the sources

The macros of `ristra/initialization/inputs_impl.h` and what `input_engine.h` does with them, the
ownership of the registered sources, and the remaining registrations of `input.h`.

Simplified: a type that takes an argument by non-const lvalue or by rvalue reference is not
distinguished from one that takes it by const reference (such a callee may change the argument
itself; the callees in the code that take references to the engine and the sources get lvalues).
Narrowing in the braced list of results is not modelled: all results have one type.
-/

namespace Verif.InputEngine

/-! ## the macros -/

/-- `detail::tuple_index<T, Tuple>::value`, inputs_impl.h:87-100; `none`: the primary template is
incomplete, the program is rejected -/
def tupleIndex {Ty : Type} [DecidableEq Ty] (τ : Ty) : List Ty → Option Nat
  | [] => none
  | σ :: σs => if σ = τ then some 0 else (tupleIndex τ σs).map (1 + ·)

/-- whether the caller passes an lvalue; inputs_impl.h:129-130, 154-155: `Args &&... args` -/
inductive Cat
  | lvalue
  | rvalue
deriving DecidableEq, Repr

/-- how the function called for each type takes an argument -/
inductive Par
  | byValue
  | byRef
deriving DecidableEq, Repr

/-- an argument of `.._by_tuple(args...)`, as it is now; inputs_impl.h:143, 164 -/
structure Arg (A : Type) where
  cat : Cat
  val : A

/-- an argument after `std::forward<Args>(args)` has been passed on, inputs_impl.h:138, 158: a
parameter by value is constructed from an rvalue by moving out of it -/
def Arg.after {A : Type} (moved : A → A) (p : Par) (a : Arg A) : Arg A :=
  match p, a.cat with
  | .byValue, .rvalue => { a with val := moved a.val }
  | _, _ => a

/-- an exception ends the whole call -/
def failure {α β : Type} : Outcome α → Outcome β
  | .ok _ | .ub => .ub
  | .assertFail => .assertFail
  | .outOfRange => .outOfRange
  | .throws x => .throws x
  | .diverges => .diverges

/-- the braced list `{f<type<Is>, Is>(std::forward<Args>(args)...)...}`, inputs_impl.h:113-114, 136-138,
157-159: its elements are evaluated from left to right, the values collected.  `f τ i args` is the
call for the type `τ` at position `i`, `pars τ` how it takes its arguments. -/
def eachFrom {Ty A S R : Type} (moved : A → A) (pars : Ty → List Par) (f : Ty → Nat → List A → S → S × Outcome R) :
    Nat → List Ty → List (Arg A) → S → S × Outcome (List R)
  | _, [], _, s => (s, .ok [])
  | i, τ :: τs, args, s =>
    match f τ i (args.map (·.val)) s with
    | (s, .ok r) =>
      match eachFrom moved pars f (i + 1) τs (List.zipWith (Arg.after moved) (pars τ) args) s with
      | (s, .ok rs) => (s, .ok (r :: rs))
      | (s, o) => (s, failure o)
    | (s, o) => (s, failure o)

/-- `apply_f_by_tuple`, `apply_op_f_by_tuple`, `apply_void_f_by_tuple`, inputs_impl.h:105-170.  `none`: does not
compile, because the empty tuple has no element 0 (112, 134) and nothing can be deduced from
`auto d = {}` (157). -/
def byTuple {Ty A S R : Type} (moved : A → A) (pars : Ty → List Par) (f : Ty → Nat → List A → S → S × Outcome R)
    (tys : List Ty) (args : List (Arg A)) (s : S) : Option (S × Outcome (List R)) :=
  if tys = [] then none else some (eachFrom moved pars f 0 tys args s)

/-! ## what the engine does with them -/

section
variable {K Ty L : Type} {Val : Ty → Type} [LinearOrder K] [DecidableEq Ty]

/-- one call of `resolve_inputs_<T, I>()(*this, m_lua_source, m_hard_coded_source)`, input_engine.h:177-178:
all three arguments are lvalues taken by reference (425-428) -/
def resolveCall (env : Env K Ty L Val) (τ : Ty) (_ : Nat) (_ : List Unit) (e : Engine K Ty L Val) :
    Engine K Ty L Val × Outcome Bool :=
  let r := resolveType env e.lua e.hc τ (e.slot τ)
  (e.setSlot τ r.1, r.2)

/-- `clear_registry_<T, I>()`, input_engine.h:347-351 with 111-116 -/
def clearCall (τ : Ty) (_ : Nat) (_ : List Unit) (e : Engine K Ty L Val) : Engine K Ty L Val × Outcome Unit :=
  ({ e with st := Function.update e.st τ { e.st τ with reg := fun _ => none, targets := ∅, failed := ∅ } }, .ok ())

/-- `register_targets<T>`, input_engine.h:251-258: the names in the order of the set -/
def registerTargets (τ : Ty) (names : Finset K) (e : Engine K Ty L Val) : Engine K Ty L Val :=
  (names.sort (· ≤ ·)).foldl (fun e k => registerTarget τ k e) e

/-- what `print_unresolved_types_` says of one type: its name and the names listed, input_engine.h:362-367 -/
structure Line (K Ty : Type) where
  type : Ty
  names : List K
deriving DecidableEq

/-- `print_unresolved_types_<T, I>`, input_engine.h:356-370; `resolutions[I]` is not checked -/
def printCall (e : Engine K Ty L Val) (τ : Ty) (i : Nat) (args : List (List Bool)) (out : List (Line K Ty)) :
    List (Line K Ty) × Outcome Unit :=
  match args with
  | [resolutions] =>
    match resolutions[i]? with
    | none => (out, .ub)
    | some true => (out, .ok ())
    | some false => (out ++ [⟨τ, (e.st τ).failed.sort (· ≤ ·)⟩], .ok ())
  | _ => (out, .ub)

/-- `resolve_inputs()` with what it prints, input_engine.h:174-184.  `deq_bool const &` (357) takes
the local variable `resolutions`, an lvalue. -/
def resolveReporting (env : Env K Ty L Val) (tys : List Ty) (e : Engine K Ty L Val) :
    Engine K Ty L Val × Outcome (Bool × List (Line K Ty)) :=
  match eachFrom id (fun _ => []) (resolveCall env) 0 tys [] e with
  | (e, .ok bs) =>
    if bs.foldl (· && ·) true then (e, .ok (true, []))
    else
      match eachFrom id (fun _ => [.byRef]) (printCall e) 0 tys [⟨.lvalue, bs⟩] [] with
      | (out, .ok _) => (e, .ok (false, out))
      | (_, o) => (e, failure o)
  | (e, o) => (e, failure o)

end

/-! ## owning the sources -/

/-- sources are known by their address; an owner is the `unique_ptr` of one engine for one kind of
source, input_engine.h:607-608 -/
structure Heap (Own : Type) where
  /-- deleted so far -/
  deleted : Nat → Bool
  /-- what each owner points to -/
  holds : Own → Option Nat

/-- no source is registered anywhere; input_engine.h:142 -/
def Heap.start {Own : Type} : Heap Own := ⟨fun _ => false, fun _ => none⟩

/-- what a program does with engines and sources -/
inductive Step (Own : Type)
  /-- `register_lua_source(p)` or `register_hard_coded_source(p)`, input_engine.h:190-204; `none`: a null pointer -/
  | register (o : Own) (p : Option Nat)
  /-- the destructor of the engine, input_engine.h:144 -/
  | destroy (o : Own)
deriving DecidableEq

/-- `unique_ptr::reset`: the new pointer is stored, then the old object is deleted; deleting it a
second time is undefined -/
def reset {Own : Type} [DecidableEq Own] (o : Own) (p : Option Nat) (h : Heap Own) : Outcome (Heap Own) :=
  let h' : Heap Own := { h with holds := Function.update h.holds o p }
  match h.holds o with
  | none => .ok h'
  | some q => if h.deleted q then .ub else .ok { h' with deleted := Function.update h'.deleted q true }

/-- one step; input_engine.h:144, 190-204 -/
def Step.run {Own : Type} [DecidableEq Own] : Step Own → Heap Own → Outcome (Heap Own)
  | .register o p, h => reset o p h
  | .destroy o, h => reset o none h

/-- a whole program -/
def runSteps {Own : Type} [DecidableEq Own] : List (Step Own) → Heap Own → Outcome (Heap Own)
  | [], h => .ok h
  | s :: ss, h => (s.run h).bind (runSteps ss)

/-- `has_lua_source`, `has_hard_coded_source`, input_engine.h:207-214 -/
def hasSource {Own : Type} (o : Own) (h : Heap Own) : Bool := (h.holds o).isSome

/-- `get_lua_source`, `get_hard_coded_source`, input_engine.h:219-231: `Require`, then `*pointer`, which is undefined
for a null pointer or one whose object is gone.  `Require` does nothing where the checks are off;
where they are on it throws, prints or does nothing (`Verif.Dbc`). -/
def getSource {Own : Type} (cfg : Dbc.Cfg) (o : Own) (h : Heap Own) : Outcome Nat :=
  if !hasSource o h && cfg.requireOn && cfg.action = .throwException then .throws "logic_error"
  else
    match h.holds o with
    | none => .ub
    | some p => if h.deleted p then .ub else .ok p

/-! ## groups and parameters -/

/-- `register_group`, input.h:129-135: `emplace`, so the first title stays; always true -/
def registerGroup (key title : List Char) (d : List Char → Option (List Char)) : (List Char → Option (List Char)) × Bool :=
  (if (d key).isSome then d else Function.update d key (some title), true)

/-- the type of a default value given to `register_parameter` -/
inductive GivenType
  | size
  | float
  | double
  | string
  /-- any other: `int`, `bool`, `const char[6]`, .. -/
  | other
deriving DecidableEq

/-- the variable `type` after the chain of `if constexpr`, input.h:149-177: not assigned for other types -/
def storedType : GivenType → Option ParamType
  | .size => some .size
  | .float => some .float
  | .double => some .double
  | .string => some .string
  | .other => none

/-- `register_parameter` as far as `type` goes, input.h:179-182: the tuple copies it into the map (when the key is new),
and reading an uninitialised variable of an enumeration type is undefined -/
def registerTyped (isNew : Bool) (t : GivenType) : Outcome (Option ParamType) :=
  if isNew then
    match storedType t with
    | some s => .ok (some s)
    | none => .ub
  else .ok none

end Verif.InputEngine
