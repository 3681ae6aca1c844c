import Verif.ArrayView.Iterators

/-!
# What can be asked of a view, and what views can be made of: `ristra/utils/array_view.h`

The members of the three class templates `strided_array_view`, `array_view` (here: dynamic) and
`static_array_view` are only compiled where they are used.  Whether such a use compiles is decided here
from the constructors each class declares; `none` stands for a program that is rejected.

All views have the same element type, which is not const; the rank is the number of extents.
`explicit operator bool`, comparisons and iterators are elsewhere (`Model`, `Iterators`).
-/

namespace Verif.ArrayView

variable {T : Type}

/-- the three class templates, array_view.h:1999-2521, 2536-3036, 3053-3563 -/
inductive Kind
  | strided | dynamic | static
deriving DecidableEq, Repr

/-- the type of an argument of a constructor -/
inductive ArgTy
  | pointer
  | index
  | view (k : Kind)
deriving DecidableEq, Repr

/-- the type of a parameter of a constructor -/
inductive ParTy
  | pointer
  | index
  | bounds
  /-- a reference to this kind of view, of the same rank -/
  | view (k : Kind)
  /-- a reference to `array_view<V, R>` where `R` is declared an `int`, array_view.h:2081-2089: never deduced, the
  template has a `ptrdiff_t` there -/
  | viewMistyped
  /-- a reference to anything with `data()` and `size()` -/
  | container
  /-- the bounds of a static view, which no value converts to: `static_bounds` has no constructors, array_view.h:1125-1130 -/
  | staticBounds
  /-- a forwarding reference -/
  | any
deriving DecidableEq, Repr

/-- a constructor: its parameters, whether it is explicit, whether it is for rank one only -/
structure Ctor where
  params : List ParTy
  expl : Bool := false
  rankOne : Bool := false
deriving DecidableEq, Repr

/-- the constructors with arguments but those from C arrays: array_view.h:2052-2054, 2067-2110, 2137-2167, 2194-2207 (strided),
2594-2596, 2609-2633, 2659-2689, 2716-2718 (dynamic), 3134-3136, 3146-3163, 3184-3198, 3223 (static) -/
def viewCtors : Kind → List Ctor
  | .strided => [⟨[.view .strided], false, false⟩, ⟨[.viewMistyped], false, false⟩, ⟨[.view .static], false, false⟩,
      ⟨[.container], true, true⟩, ⟨[.container, .bounds], false, false⟩, ⟨[.pointer, .bounds], false, false⟩,
      ⟨[.pointer, .index, .index], false, false⟩]
  | .dynamic => [⟨[.view .dynamic], false, false⟩, ⟨[.view .static], false, false⟩, ⟨[.container], true, true⟩,
      ⟨[.container, .bounds], false, false⟩, ⟨[.pointer, .bounds], false, false⟩]
  | .static => [⟨[.any, .staticBounds], false, false⟩, ⟨[.view .static], false, false⟩, ⟨[.container], true, false⟩,
      ⟨[.pointer], false, false⟩]

/-- whether an argument can be passed; the argument is an lvalue.  An `index_t` has no `data()`, array_view.h:108-385.
For rank one any one value makes bounds as far as the declaration goes, array_view.h:606-611, 866-871 -/
def passes (rank : Nat) : ParTy → ArgTy → Bool
  | .pointer, a => decide (a = .pointer)
  | .index, a => decide (a = .index)
  | .bounds, _ => decide (rank = 1)
  | .view k, a => decide (a = .view k)
  | .viewMistyped, _ => false
  | .container, a => match a with
    | .view _ => true
    | _ => false
  | .staticBounds, _ => false
  | .any, _ => true

/-- all arguments can be passed -/
def passAll (rank : Nat) : List ParTy → List ArgTy → Bool
  | [], [] => true
  | p :: ps, a :: as => passes rank p a && passAll rank ps as
  | _, _ => false

/-- `K(args...)` (`direct`), or `return arg;` where a `K` is returned (not `direct`), has a constructor to call -/
def constructs (direct : Bool) (rank : Nat) (k : Kind) (args : List ArgTy) : Bool :=
  (viewCtors k).any fun c => (direct || !c.expl) && (!c.rankOne || decide (rank = 1)) && passAll rank c.params args

/-- the rank of a view -/
def View.rank (v : View) : Nat := v.bnd.ext.length

/-- `strides()` read by the caller: array_view.h:2228-2229 and 2738-2739 refer to the member; 3246-3247 refers to the temporary
which `static_bounds::strides()` (1186-1189) returns, gone when the caller looks at it -/
def askStrides (k : Kind) (v : View) : Outcome Idx :=
  match k with
  | .static => .ub
  | _ => .ok v.bnd.str

/-- `stride()` read by the caller, array_view.h:715-716, 969-972, 1191-1194 through 2231-2232, 2741-2742, 3249-3250 -/
def askStride (k : Kind) (v : View) : Outcome Int :=
  match k with
  | .static => .ub
  | _ => .ok (v.bnd.str.headD 0)

/-- `extent<Dim>()`, array_view.h:2241-2248, 2750-2757, 3256-3263 with 665-672, 922-929, 1146-1153 and 206-213: a `size_t`;
a `static_assert` rejects other dimensions -/
def askExtent (d : Nat) (v : View) : Option (Outcome Int) :=
  match v.bnd.ext[d]? with
  | some n => some (.ok (n % 2 ^ 64))
  | none => none

/-- `section()`, array_view.h:2326-2327, 2835-2836, 3347-3348: `return *this;` in a function returning a strided view -/
def askSection (k : Kind) (v : View) : Option (Outcome View) :=
  if constructs false v.rank .strided [.view k] then some (.ok ⟨v.data, ofStrides v.bnd.ext v.bnd.str⟩) else none

/-- the arguments with which a section is made: pointer, extents, strides in array_view.h:2333 and 2342, 2842 and 2851;
extents, strides, pointer in 3354 and 3363 -/
def sectionArgs : Kind → List ArgTy
  | .static => [.index, .index, .pointer]
  | _ => [.pointer, .index, .index]

/-- `section(origin)`, array_view.h:2329-2334, 2838-2843, 3350-3355 -/
def askSectionFrom (k : Kind) (v : View) (origin : Idx) : Option (Outcome View) :=
  if constructs true v.rank .strided (sectionArgs k) then some (v.sectionFrom origin) else none

/-- `section(origin, bnds)`, array_view.h:2336-2343, 2845-2852, 3357-3364 -/
def askSectionOf (k : Kind) (v : View) (origin bnds : Idx) : Option (Outcome View) :=
  if constructs true v.rank .strided (sectionArgs k) then some (v.section origin bnds) else none

/-- how many values the type of a slice of a static view can be given: `sliced_type` (array_view.h:3122) is the helper
`slice_chooser` itself (3068-3078), which has no members, and not the `type` in it -/
def slicedMembers : Nat := 0

/-- `v[i]` for a whole number `i`: the slice for ranks above one, array_view.h:2300-2305, 2809-2814, 3318-3326 -/
def askRow (k : Kind) (v : View) (i : Nat) : Option (Outcome View) :=
  if v.rank ≤ 1 then none
  else match k with
    | .strided => some (.ok (v.sliceStrided i))
    | .dynamic => some (v.sliceContiguous i)
    | .static => if 2 ≤ slicedMembers then some (v.sliceContiguous i) else none

/-- what `slice(i)` returns -/
inductive Sliced (T : Type)
  | view (v : View)
  | elem (x : T)
deriving DecidableEq, Repr

/-- an exception leaving a `noexcept` function -/
def terminates {X : Type} : Outcome X → Outcome X
  | .outOfRange => .throws "terminate"
  | o => o

/-- `slice(i)`, array_view.h:2311-2319, 2820-2828 for ranks above one; 3332-3339 for any rank, `noexcept`, where for rank one
`operator[](i)` is the element at the index made of `i` (166-172, 3283-3286); the comparison is made in `size_t`, here for
non-negative extents -/
def askSlice (k : Kind) (mem : List T) (v : View) (i : Nat) : Option (Outcome (Sliced T)) :=
  match k with
  | .strided => if v.rank ≤ 1 then none else some (v.slice i >>= fun w => .ok (.view w))
  | .dynamic => if v.rank ≤ 1 then none else some (v.sliceC i >>= fun w => .ok (.view w))
  | .static =>
    if v.rank = 1 then some (terminates (if (i : Int) ≥ v.bnd.ext.headD 0 then .outOfRange else
      v.get mem [(i : Int)] >>= fun x => .ok (.elem x)))
    else (askRow .static v i).map fun o => terminates (if (i : Int) ≥ v.bnd.ext.headD 0 then .outOfRange else
      o >>= fun w => .ok (.view w))

/-- `w = v` for a view of const elements and one of the same kind, array_view.h:2119-2129, 2641-2651, and 3171-3179 which ends
without returning: the state is that of `w` afterwards -/
def assignConst (k : Kind) (v : View) : Outcome View :=
  match k with
  | .static => .ub
  | _ => .ok v

/-! ## one kind of view from another -/

/-- the candidates for making one view from another -/
inductive Via
  /-- the copy constructors, array_view.h:2052-2054, 2594-2596, 3134-3136 -/
  | copy
  /-- from a static view, array_view.h:2100-2110, 2623-2633 -/
  | conv
  /-- from a container, array_view.h:2137-2146, 2659-2668, 3184-3198 -/
  | cont
  /-- the conversion operators of the source, array_view.h:2856-2859, 3368-3378 -/
  | oper
deriving DecidableEq, Repr

/-- the type made: a kind and, for static views, the extents; for the others only the rank counts -/
structure Target where
  kind : Kind
  ext : Idx
deriving DecidableEq, Repr

/-- the target and the view have the same type -/
def sameType (t : Target) (k : Kind) (v : View) : Bool :=
  decide (t.kind = k) && (if k = .static then decide (t.ext = v.bnd.ext) else decide (t.ext.length = v.rank))

/-- a candidate can be called; `Container &` does not bind a temporary -/
def viaOk (direct : Bool) (t : Target) (k : Kind) (src : Source) (v : View) : Via → Bool
  | .copy => sameType t k v
  | .conv => decide (t.kind ≠ .static) && decide (k = .static) && decide (t.ext.length = v.rank)
  | .cont => direct && decide (src ≠ .rvalue) && (decide (t.kind = .static) || decide (t.ext.length = 1))
  | .oper => direct && decide (t.ext.length = v.rank) &&
      ((decide (k = .dynamic) && decide (t.kind = .strided)) || (decide (k = .static) && decide (t.kind ≠ .static)))

/-- the candidates from best to worst: `Container &` binds an object that is not const without adding const; a copy constructor is
not a template; `static_array_view<V, N...>` is more special than `Container`; a conversion operator comes last -/
def viaOrder : Source → List Via
  | .lvalue => [.cont, .copy, .conv, .oper]
  | _ => [.copy, .conv, .cont, .oper]

/-- the candidate called -/
def via (direct : Bool) (t : Target) (k : Kind) (src : Source) (v : View) : Option Via :=
  (viaOrder src).find? (viaOk direct t k src v)

/-- what is made.  `oper` of a static view does not compile: `strided_view(extents, strides, pointer)` at array_view.h:3370,
`dynamic_view(extents, pointer)` at 3377 -/
def makeVia (t : Target) (k : Kind) (v : View) : Via → Option (Outcome View)
  | .copy => some (.ok v)
  | .conv => some (match t.kind with
    | .strided => .ok ⟨v.data, ofStrides v.bnd.ext v.bnd.str⟩
    | _ => toDynamic v)
  | .cont => some (match t.kind with
    | .static => do
      let b ← ofExtents t.ext
      Outcome.assert (v.bnd.size ≥ b.size)
      .ok ⟨v.data, b⟩
    | _ => flatten v)
  | .oper => match k with
    | .static => if constructs true v.rank t.kind (if t.kind = .strided then [.index, .index, .pointer] else [.index, .pointer])
        then some (.ok v) else none
    | _ => some (.ok (toStrided v))

/-- `K w = v;` or `K w(v);` -/
def convert (direct : Bool) (t : Target) (k : Kind) (src : Source) (v : View) : Option (Outcome View) :=
  match via direct t k src v with
  | some c => makeVia t k v c
  | none => none

/-! ## views of C arrays, pointers and containers -/

/-- what a view is made of -/
inductive Mem
  /-- `T a[n1][n2]..` -/
  | carray (ext : List Nat)
  /-- a container of `n` elements, such as `std::vector<T>` -/
  | container (n : Nat) (src : Source)
deriving DecidableEq, Repr

/-- how many elements there are -/
def Mem.count : Mem → Nat
  | .carray ext => ext.prod
  | .container n _ => n

/-- the extents of an array as an index -/
def asIdx (ext : List Nat) : Idx := ext.map Int.ofNat

/-- a view of all of a buffer -/
def wholeView (ext : Idx) : Outcome View := do
  let b ← ofExtents ext
  .ok ⟨some 0, b⟩

/-- `array_view<T, N>(a)` or `strided_array_view<T, N>(a)`, where `N` is deduced: array_view.h:2137-2146 and 2172-2185, 2659-2668
and 2694-2707.  A const container has a pointer to const, which is not the view's; a temporary does not bind -/
def viewOf : Mem → Option (Outcome View)
  | .carray ext => if ext = [] then none else some (ofArray (asIdx ext))
  | .container n src => if src = .lvalue then some (wholeView [(n : Int)]) else none

/-- `make_array_view(a)`, array_view.h:3606-3611 and 3656-3665 -/
def makeArrayView (m : Mem) : Option (Outcome View) := viewOf m

/-- `make_array_view(a, dims...)`, array_view.h:3618-3629: the element type is that of `a[0]`, for an array of arrays a pointer, and
then no constructor takes the array; a plain array goes by its pointer, array_view.h:2716-2718 -/
def makeArrayViewOf (m : Mem) (dims : Idx) : Option (Outcome View) :=
  match m with
  | .carray ext => if ext.length = 1 then some (wholeView dims) else none
  | .container n src => if src = .lvalue then some (makeView n dims) else none

/-- `static_array_view<T, dims...>(a)`.  An array of one dimension: the constructor from a pointer (array_view.h:3223) is as
good as the one from an array (3202-3215), and not a template.  Arrays of more dimensions: 3202-3215 and 3543-3551, where a
`static_assert` compares the numbers of elements.  Containers: 3184-3198 -/
def staticViewOf (m : Mem) (dims : Idx) : Option (Outcome View) :=
  match m with
  | .carray ext =>
    if ext.length = 1 then some (wholeView dims)
    else if ext.length = dims.length ∧ (ext.prod : Int) ≥ dims.prod ∧ ext ≠ [] then some (wholeView dims)
    else none
  | .container n src => if src = .lvalue then some (makeView n dims) else none

/-- `make_static_array_view<dims...>(a)`, array_view.h:3638-3649: the element type is again that of `a[0]` -/
def makeStaticViewOf (m : Mem) (dims : Idx) : Option (Outcome View) :=
  match m with
  | .carray ext => if ext.length = 1 then staticViewOf m dims else none
  | .container _ _ => staticViewOf m dims

/-- `make_static_array_view(a)`, array_view.h:3593-3598 and 3671-3679 -/
def makeStaticView : Mem → Option (Outcome View)
  | .carray ext => if ext = [] then none else staticViewOf (.carray ext) (asIdx ext)
  | .container _ _ => none

end Verif.ArrayView
