import Verif.ArrayView.Model

/-!
# Iterators over views, copies and conversions of views (utils/array_view.h)

An iterator keeps the address of its view object, so the view objects of the program are a store from addresses
to views; `none` is an address where no view lives (any more).  `cbegin`, `cend` read the view through a pointer to
the view type with const elements, which is taken to have the same layout.
-/

namespace Verif.ArrayView

/-- the view objects of the program -/
abbrev Store := Nat → Option View

/-- writing `*p` -/
def store (mem : List T) (p : Int) (x : T) : Outcome (List T) :=
  if 0 ≤ p ∧ p < mem.length then .ok (mem.set p.toNat x) else .ub

/-! ## `strided_iterator` -/

/-- `strided_iterator`, array_view.h:1764-1768, with its `bounds_iterator` (1558-1566), which has a copy of the extents -/
structure SIt where
  cont : Nat
  bnd : Idx
  cur : Idx
deriving DecidableEq, Repr

/-- the constructor, array_view.h:1603-1606 -/
def sBegin (s : Store) (c : Nat) : Outcome SIt :=
  match s c with
  | some v => .ok ⟨c, v.bnd.ext, beginIdx v.bnd.ext⟩
  | none => .ub
/-- the same constructor with `is_end`, array_view.h:1603-1606 -/
def sEnd (s : Store) (c : Nat) : Outcome SIt :=
  match s c with
  | some v => .ok ⟨c, v.bnd.ext, endIdx v.bnd.ext⟩
  | none => .ub

/-- `operator*`, array_view.h:1618: through the view object -/
def SIt.get (s : Store) (mem : List T) (it : SIt) : Outcome T :=
  match s it.cont with
  | some v => v.get mem it.cur
  | none => .ub
/-- `*it = x` -/
def SIt.set (s : Store) (mem : List T) (it : SIt) (x : T) : Outcome (List T) :=
  match s it.cont with
  | some v => (match v.addr it.cur with | some p => store mem p x | none => .ub)
  | none => .ub

/-- `operator++`, array_view.h:1629-1633 -/
def SIt.inc (it : SIt) : SIt := { it with cur := ArrayView.inc it.bnd it.cur }
/-- `operator--`, array_view.h:1644-1648: `noexcept`, so an exception ends the program -/
def SIt.dec (it : SIt) : Outcome SIt :=
  match ArrayView.dec it.bnd it.cur with
  | .ok c => .ok { it with cur := c }
  | .throws _ => .throws "terminate"
  | _ => .ub

/-- `operator==`, array_view.h:1721-1725 -/
def SIt.eq (a b : SIt) : Outcome Bool := do
  Outcome.assert (a.cont == b.cont)
  .ok (idxEq a.cur b.cur)

/-- `for (; it != last; ++it)` collecting `*it` -/
def sForward (s : Store) (mem : List T) (it last : SIt) : Nat → Outcome (List T)
  | 0 => .diverges
  | fuel + 1 => do
    let e ← it.eq last
    if e then .ok []
    else do
      let x ← it.get s mem
      let r ← sForward s mem it.inc last fuel
      .ok (x :: r)

/-- the same from `rbegin` to `rend`: `std::reverse_iterator` steps back before it reads -/
def sBackward (s : Store) (mem : List T) (it first : SIt) : Nat → Outcome (List T)
  | 0 => .diverges
  | fuel + 1 => do
    let e ← it.eq first
    if e then .ok []
    else do
      let p ← it.dec
      let x ← p.get s mem
      let r ← sBackward s mem p first fuel
      .ok (x :: r)

/-- `for (; it != last; ++it) *it = f(k++)` -/
def sAssign (s : Store) (mem : List T) (f : Nat → T) (k : Nat) (it last : SIt) : Nat → Outcome (List T)
  | 0 => .diverges
  | fuel + 1 => do
    let e ← it.eq last
    if e then .ok mem
    else do
      let m ← it.set s mem (f k)
      sAssign s m f (k + 1) it.inc last fuel

/-! ## `contiguous_iterator` -/

/-- `contiguous_iterator`, array_view.h:1966-1972 -/
structure CIt where
  cont : Nat
  ptr : Option Int
deriving DecidableEq, Repr

/-- the constructor, array_view.h:1808-1811 -/
def cBegin (s : Store) (c : Nat) : Outcome CIt :=
  match s c with
  | some v => .ok ⟨c, v.data⟩
  | none => .ub
/-- the same constructor with `is_end`, array_view.h:1808-1811 -/
def cEnd (s : Store) (c : Nat) : Outcome CIt :=
  match s c with
  | some v => .ok ⟨c, v.data.map (· + v.bnd.size)⟩
  | none => .ub
/-- `cend()` of a static view, array_view.h:3414-3417: the const view type named at array_view.h:3107 has the single extent `Rank` -/
def staticCEnd (s : Store) (c : Nat) : Outcome CIt :=
  match s c with
  | some v => .ok ⟨c, v.data.map (· + (v.bnd.ext.length : Int))⟩
  | none => .ub

/-- `operator*`, array_view.h:1821 -/
def CIt.get (mem : List T) (it : CIt) : Outcome T :=
  match it.ptr with
  | some p => load mem p
  | none => .ub
/-- `*it = x`, array_view.h:1821 -/
def CIt.set (mem : List T) (it : CIt) (x : T) : Outcome (List T) :=
  match it.ptr with
  | some p => store mem p x
  | none => .ub
/-- `operator+=`, array_view.h:1880-1884; `++` and `--` are one step -/
def CIt.add (it : CIt) (n : Int) : CIt := { it with ptr := it.ptr.map (· + n) }
/-- `operator-`, array_view.h:1903-1907; null pointers differ by nothing -/
def CIt.diff (a b : CIt) : Outcome Int := do
  Outcome.assert (a.cont == b.cont)
  match a.ptr, b.ptr with
  | some p, some q => .ok (p - q)
  | none, none => .ok 0
  | _, _ => .ub
/-- `operator[]`, array_view.h:1911-1914 -/
def CIt.at' (mem : List T) (it : CIt) (n : Int) : Outcome T := (it.add n).get mem
/-- `operator==`, array_view.h:1923-1927 -/
def CIt.eq (a b : CIt) : Outcome Bool := do
  Outcome.assert (a.cont == b.cont)
  .ok (a.ptr == b.ptr)
/-- `operator<`, array_view.h:1932-1936 -/
def CIt.lt (a b : CIt) : Outcome Bool := do
  Outcome.assert (a.cont == b.cont)
  match a.ptr, b.ptr with
  | some p, some q => .ok (p < q)
  | none, none => .ok false
  | _, _ => .ub

/-- `for (; it != last; ++it)` collecting `*it`, over contiguous iterators (operators at array_view.h:1821,
1880-1884, 1923-1927) -/
def cForward (mem : List T) (it last : CIt) : Nat → Outcome (List T)
  | 0 => .diverges
  | fuel + 1 => do
    let e ← it.eq last
    if e then .ok []
    else do
      let x ← it.get mem
      let r ← cForward mem (it.add 1) last fuel
      .ok (x :: r)

/-- the same from `rbegin` to `rend` -/
def cBackward (mem : List T) (it first : CIt) : Nat → Outcome (List T)
  | 0 => .diverges
  | fuel + 1 => do
    let e ← it.eq first
    if e then .ok []
    else do
      let x ← (it.add (-1)).get mem
      let r ← cBackward mem (it.add (-1)) first fuel
      .ok (x :: r)

/-- `for (; it != last; ++it) *it = f(k++)`, over contiguous iterators -/
def cAssign (mem : List T) (f : Nat → T) (k : Nat) (it last : CIt) : Nat → Outcome (List T)
  | 0 => .diverges
  | fuel + 1 => do
    let e ← it.eq last
    if e then .ok mem
    else do
      let m ← it.set mem (f k)
      cAssign m f (k + 1) (it.add 1) last fuel

/-! ## copies and conversions -/

/-- where a view is copied from -/
inductive Source
  | lvalue | constLvalue | rvalue
deriving DecidableEq, Repr

/-- the constructor taking a container, array_view.h:2136-2146, 2658-2668: `data()` and `size()` of what is given -/
def flatten (v : View) : Outcome View := do
  let b ← ofExtents [v.bnd.size]
  .ok ⟨v.data, b⟩

/-- `strided_array_view<T, rank> w = v;`: explicit constructors are not considered, array_view.h:2052, 2068-2073 -/
def copyInit (v : View) : Outcome View := .ok v

/-- `strided_array_view<T, rank> w(v);`: for rank one and a source that is not const, the explicit constructor
template taking `Container &` (array_view.h:2136-2146) matches better than the copy constructor's `const &` -/
def directInit (rank : Nat) (src : Source) (v : View) : Outcome View :=
  if rank = 1 ∧ src = .lvalue then flatten v else .ok v

/-- a contiguous view as a strided one, array_view.h:2856-2859 (the constructor at 2088 is never deduced: its `int ViewRank` is not the `ptrdiff_t` of the template) -/
def toStrided (v : View) : View := ⟨v.data, ofStrides v.bnd.ext v.bnd.str⟩

/-- a static view as a dynamic one, array_view.h:2630-2633: the strides are computed again -/
def toDynamic (v : View) : Outcome View := do
  let b ← ofExtents v.bnd.ext
  .ok ⟨v.data, b⟩

/-- a view of a C array with these extents, array_view.h:2504-2510, 3019-3025 -/
def ofArray (ext : Idx) : Outcome View := do
  let b ← ofExtents ext
  .ok ⟨some 0, b⟩

/-- `make_array_view(cont, dims...)`, array_view.h:3616-3629 -/
def makeView (n : Nat) (dims : Idx) : Outcome View := do
  let b ← ofExtents dims
  ofContainer n b

/-- `swap`, array_view.h:2484-2488 -/
def swapViews (s : Store) (a b : Nat) : Store := fun c => if c = a then s b else if c = b then s a else s c

/-- `clear`, array_view.h:2354 -/
def clearView (v : View) : View := View.default v.bnd.ext.length

end Verif.ArrayView
