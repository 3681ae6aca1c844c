/-!
# Type predicates (utils/type_traits.h, type_traits_impl.h)

C++ types are data here; a predicate is a function of the type, with a third outcome for uses the compiler
rejects outright.  Classes are described by what they declare and derive from (non-virtual inheritance; a base
class has an access).  What overload resolution would find inside a class is not modelled beyond name lookup
and access; unions are taken to have none of the members asked for.
-/

namespace Verif.TypeTraits

/-- what an instantiation does: a value, or an error that is not a substitution failure -/
inductive Res (α : Type)
  | val (a : α)
  | hard
  deriving DecidableEq, Repr

/-- const and volatile -/
structure CV where
  c : Bool
  v : Bool
  deriving DecidableEq, Repr

/-- neither -/
def CV.none : CV := ⟨false, false⟩

/-- unqualified types that are not built from others -/
inductive Base
  | void
  | integral (k : Nat)   -- bool, character and integer types
  | floating (k : Nat)
  | enumeration (k : Nat)
  | cls (k : Nat)        -- class or struct number `k`
  | union (k : Nat)
  deriving DecidableEq, Repr

/-- types other than references -/
inductive Obj
  | base (q : CV) (b : Base)
  | ptr (q : CV) (t : Obj)
  | arr (n : Option Nat) (t : Obj)
  | fn (k : Nat)
  | wrap (q : CV) (t : Obj)   -- std::reference_wrapper<t>
  deriving DecidableEq, Repr

/-- types -/
inductive Ty
  | plain (t : Obj)
  | lref (t : Obj)
  | rref (t : Obj)
  deriving DecidableEq, Repr

/-- without const and volatile; those of an array are those of its elements -/
def Obj.removeCv : Obj → Obj
  | .base _ b => .base CV.none b
  | .ptr _ t => .ptr CV.none t
  | .arr n t => .arr n t.removeCv
  | .fn k => .fn k
  | .wrap _ t => .wrap CV.none t

/-- `std::remove_reference` -/
def Ty.removeRef : Ty → Obj
  | .plain t | .lref t | .rref t => t

/-- `std::decay` -/
def Ty.decay (t : Ty) : Obj :=
  match t.removeRef with
  | .arr _ e => .ptr CV.none e
  | .fn k => .ptr CV.none (.fn k)
  | o => o.removeCv

/-- `detail::and_`, type_traits_impl.h:25-34 -/
def and_ : List Bool → Bool
  | [] => true
  | c :: cs => if c then and_ cs else false

/-- `are_type_t`, utils/type_traits.h:28-30 -/
def areType (target : Ty) (ts : List Ty) : Bool := and_ (ts.map fun t => decide (t.decay = target.decay))

/-- `std::is_integral`: also true for const and volatile integral types, not for references -/
def isIntegral : Ty → Bool
  | .plain (.base _ (.integral _)) => true
  | _ => false

/-- `are_integral`, utils/type_traits.h:144-156 -/
def areIntegral : List Ty → Bool
  | [] => true
  | t :: ts => isIntegral t && areIntegral ts

/-! ## classes and member lookup -/

/-- the access of a member or of a base class -/
inductive Access
  | pub | prot | priv
  deriving DecidableEq, Repr

/-- the members a class declares that the predicates ask for -/
inductive Name
  | call | subscript | size | data | begin | end_ | cbegin | cend
  | value_type | size_type | allocator_type | iterator | const_iterator
  | difference_type | pointer | reference | iterator_category
  deriving DecidableEq, Repr

/-- a class: number, final or not, the names it declares with their access, its bases with their access -/
inductive Cls
  | mk (id : Nat) (final : Bool) (decls : List (Name × Access)) (bases : List (Access × Cls))

/-- the number of a class -/
def Cls.id : Cls → Nat | .mk i _ _ _ => i
/-- is it final -/
def Cls.final : Cls → Bool | .mk _ f _ _ => f
/-- what it declares -/
def Cls.decls : Cls → List (Name × Access) | .mk _ _ d _ => d
/-- what it derives from -/
def Cls.bases : Cls → List (Access × Cls) | .mk _ _ _ b => b

/-- result of member name lookup -/
inductive Found
  | none
  | one (declaredIn : Nat) (accessible : Bool)
  | ambiguous
  deriving DecidableEq, Repr

/-- two base class results together: two different subobjects make it ambiguous -/
def Found.merge : Found → Found → Found
  | .none, b => b
  | a, .none => a
  | _, _ => .ambiguous

/-- the access along one derivation step, seen from outside -/
def Found.through (a : Access) : Found → Found
  | .one i acc => .one i (acc && decide (a = .pub))
  | f => f

mutual
/-- member name lookup: what a class declares hides its bases; otherwise the results of the bases together -/
def lookup (n : Name) : Cls → Found
  | .mk i _ d bs =>
    if d.any (fun x => decide (x.1 = n)) then .one i (d.any fun x => decide (x.1 = n) && decide (x.2 = .pub))
    else lookupBases n bs
/-- the bases in turn -/
def lookupBases (n : Name) : List (Access × Cls) → Found
  | [] => .none
  | (a, c) :: bs => ((lookup n c).through a).merge (lookupBases n bs)
end

/-- the program's classes -/
abbrev Env := Nat → Cls

/-- the class `Fallback`, type_traits_impl.h:74-76; `id` is fresh -/
def fallback (id : Nat) : Cls := .mk id false [(.call, .pub)] []

/-- the class `Derived`, type_traits_impl.h:77-78 -/
def derived (t : Cls) (id : Nat) : Cls := .mk (id + 1) false [] [(.pub, t), (.pub, fallback id)]

/-- `detail::is_callable`, type_traits_impl.h:69-93: `&C::operator()` names Fallback's exactly if lookup in
`Derived` finds that one; deriving from a final class is an error -/
def callableImpl (t : Cls) (id : Nat) : Res Bool :=
  if t.final then .hard
  else .val (match lookup .call (derived t id) with
    | .one i _ => !decide (i = id)
    | _ => true)

/-- `is_callable`, utils/type_traits.h:59-62 -/
def isCallable (Γ : Env) (fresh : Nat) : Ty → Res Bool
  | .plain (.base _ (.cls k)) => callableImpl (Γ k) fresh
  | .plain (.wrap _ _) => .val true   -- std::reference_wrapper declares operator()
  | _ => .val false

/-- an accessible member of that name is found -/
def hasMember (c : Cls) (n : Name) : Bool :=
  match lookup n c with
  | .one _ acc => acc
  | _ => false

/-- `is_container`, utils/type_traits.h:73-90 (the calls of a const object are taken to be as valid as the others) -/
def isContainer (Γ : Env) : Ty → Bool
  | .plain (.base _ (.cls k)) =>
    [Name.value_type, .size_type, .allocator_type, .iterator, .const_iterator, .size, .begin, .end_, .cbegin, .cend,
      .data].all (hasMember (Γ k))
  | _ => false

/-- `is_minimal_container`, utils/type_traits.h:120-133 -/
def isMinimalContainer (Γ : Env) : Ty → Bool
  | .plain (.base _ (.cls k)) | .lref (.base _ (.cls k)) | .rref (.base _ (.cls k)) =>
    [Name.size, .data].all (hasMember (Γ k))
  | _ => false

/-- `std::iterator_traits<T>` has its five members (C++17): unqualified pointers, also to functions; classes that
have all five themselves -/
def hasTraits (Γ : Env) : Ty → Res Bool
  | .plain (.ptr q t) =>
    if q = CV.none then (match t with | .base _ .void => .hard | _ => .val true) else .val false
  | .plain (.base _ (.cls k)) =>
    .val ([Name.difference_type, .pointer, .reference, .value_type, .iterator_category].all (hasMember (Γ k)))
  | _ => .val false

/-- what `test(U &&)` deduces for `U` from `std::declval<T>()`: `X &` for an lvalue, `X` otherwise -/
def deduced : Ty → Ty
  | .lref t => .lref t
  | .rref t => .plain t
  | .plain t => .plain t

/-- `is_iterator`, utils/type_traits.h:36-50; a `void` argument is an error for both overloads -/
def isIterator (Γ : Env) : Ty → Res Bool
  | .plain (.base _ .void) => .hard
  | t => hasTraits Γ (deduced t)

/-- `special_decay`, utils/type_traits.h:194-205: the specialisation is for the unqualified wrapper -/
def specialDecay : Ty → Ty
  | .plain (.wrap q t) => if q = CV.none then .lref t else .plain (.wrap CV.none t)
  | t => .plain t.decay

/-- operands of the built-in subscript, after the array-to-pointer conversion -/
def pointerToObject : Obj → Bool
  | .ptr _ (.base _ .void) => false
  | .ptr _ (.fn _) => false
  | .ptr _ _ => true
  | .arr _ _ => true
  | _ => false

/-- an integral type or an unscoped enumeration -/
def subscriptIndex : Obj → Bool
  | .base _ (.integral _) => true
  | .base _ (.enumeration _) => true
  | _ => false

/-- `has_subscript_operator`, type_traits_impl.h:39-47, for types that are not classes: the built-in `a[b]`
(unscoped enumerations) -/
def hasSubscript (t i : Ty) : Bool :=
  (pointerToObject t.removeRef && subscriptIndex i.removeRef) || (subscriptIndex t.removeRef && pointerToObject i.removeRef)

/-- what a function returns whose declared type is `auto` or `auto &` -/
inductive Category
  | lvalue | prvalue
  deriving DecidableEq, Repr

/-- `detail::extract_extents_helper`, type_traits_impl.h:103-110: `auto` returning an array decays to a pointer by
value; `rank 0` would need an array of no elements -/
def extentsHelper (rank : Nat) : Res (Obj × Category) :=
  if rank = 0 then .hard else .val (.ptr CV.none (.base ⟨true, false⟩ (.integral 0)), .prvalue)

/-- `extract_extents`, utils/type_traits.h:182-187: `auto &` binds only to an lvalue (the type is not const) -/
def extractExtents (t : Ty) (rank : Ty → Nat) : Res Obj :=
  match extentsHelper (rank t) with
  | .val (o, .lvalue) => .val o
  | _ => .hard

end Verif.TypeTraits
