import Verif.Json.PatchModel

/-!
# Model of the iterators of `ristra/io/catalyst/utils/json.hpp`, and of what changes a value by them

Values have addresses: a store gives the value at each.  An iterator holds the address of the value it
belongs to and three positions, of which the kind of the value says which one counts.  The position in a
map or a vector is the number of the elements before it, so an iterator is only meant for the value as
it is now: what a change does to the iterators made before it is left out, except for the iterator the
change gives back.  Advancing beyond the ends, and using an iterator that was never set, is undefined.
`const_iterator` and `iterator` differ in what can be done with the reference only.
-/

namespace Verif.Json

variable {F T : Type}

/-- the values at their addresses -/
abbrev Store (F : Type) := Nat → Json F

/-- what is at an address is replaced -/
def Store.put (σ : Store F) (a : Nat) (v : Json F) : Store F := fun b => if b = a then v else σ b

/-- `iter_impl` with `internal_iterator`, json.hpp:9288-9296, 9940-9942; a position that was never set is
`none`, and for a `primitive_iterator_t` the least number (9182) -/
structure Iter where
  owner : Option Nat
  objIt : Option Nat := none
  arrIt : Option Nat := none
  prim : Int := -2 ^ 63
deriving DecidableEq, Repr

/-- a number of type `difference_type` -/
def diffT (n : Int) : Outcome Int := if -2 ^ 63 ≤ n ∧ n < 2 ^ 63 then .ok n else .ub

/-- `begin` and `cbegin` with `set_begin`, json.hpp:9479-9510, 18675-18680, 18715-18720 -/
def begin_ (σ : Store F) (a : Nat) : Iter :=
  match σ a with
  | .obj _ => { owner := some a, objIt := some 0 }
  | .arr _ => { owner := some a, arrIt := some 0 }
  | .null => { owner := some a, prim := 1 }
  | _ => { owner := some a, prim := 0 }

/-- `end` and `cend` with `set_end`, json.hpp:9516-9540, 18746-18751, 18786-18791 -/
def end_ (σ : Store F) (a : Nat) : Iter :=
  match σ a with
  | .obj ms => { owner := some a, objIt := some ms.length }
  | .arr xs => { owner := some a, arrIt := some xs.length }
  | _ => { owner := some a, prim := 1 }

/-- the value at a position of a map or vector that is not the end, after the assertion of
json.hpp:9555, 9561 -/
def derefPos (vs : List (Json F)) : Option Nat → Outcome (Json F)
  | none => .ub
  | some i => if i = vs.length then .assertFail else
    match vs[i]? with
    | some v => .ok v
    | none => .ub

/-- `operator*`, json.hpp:9547-9578: the value the reference is to -/
def deref (σ : Store F) (it : Iter) : Outcome (Json F) :=
  match it.owner with
  | none => .assertFail
  | some a =>
    match σ a with
    | .obj ms => derefPos (ms.map (·.2)) it.objIt
    | .arr xs => derefPos xs it.arrIt
    | .null => .throws "invalid_iterator.214"
    | v => if it.prim = 0 then .ok v else .throws "invalid_iterator.214"

/-- `operator->`, json.hpp:9584-9612: the value pointed to -/
def arrow (σ : Store F) (it : Iter) : Outcome (Json F) :=
  match it.owner with
  | none => .assertFail
  | some a =>
    match σ a with
    | .obj ms => derefPos (ms.map (·.2)) it.objIt
    | .arr xs => derefPos xs it.arrIt
    | v => if it.prim = 0 then .ok v else .throws "invalid_iterator.214"

/-- `*it = v`: the value the iterator belongs to after the assignment through `operator*`,
json.hpp:9547-9578 -/
def assign (σ : Store F) (it : Iter) (v : Json F) : Outcome (Json F) :=
  match it.owner with
  | none => .assertFail
  | some a =>
    match σ a with
    | .obj ms =>
      match it.objIt with
      | none => .ub
      | some i => if i = ms.length then .assertFail else
        match ms[i]? with
        | some e => .ok (.obj (ms.set i (e.1, v)))
        | none => .ub
    | .arr xs =>
      match it.arrIt with
      | none => .ub
      | some i => if i = xs.length then .assertFail else if i < xs.length then .ok (.arr (xs.set i v)) else .ub
    | .null => .throws "invalid_iterator.214"
    | _ => if it.prim = 0 then .ok v else .throws "invalid_iterator.214"

/-- `std::advance` of the position in a container of this size (json.hpp:9637, 9643, 9680, 9686, 9805) -/
def advance (size : Nat) (n : Int) : Option Nat → Outcome (Option Nat)
  | none => if n = 0 then .ok none else .ub
  | some i => if 0 ≤ (i : Int) + n ∧ (i : Int) + n ≤ size then .ok (some ((i : Int) + n).toNat) else .ub

/-- `operator++` and `operator--` before the iterator, json.hpp:9629-9655, 9672-9698: by `n`, 1 or -1 -/
def step_ (σ : Store F) (n : Int) (it : Iter) : Outcome Iter :=
  match it.owner with
  | none => .assertFail
  | some a =>
    match σ a with
    | .obj ms => advance ms.length n it.objIt >>= fun p => .ok { it with objIt := p }
    | .arr xs => advance xs.length n it.arrIt >>= fun p => .ok { it with arrIt := p }
    | _ => diffT (it.prim + n) >>= fun p => .ok { it with prim := p }

/-- `operator++`, json.hpp:9629-9655 -/
def incr (σ : Store F) (it : Iter) : Outcome Iter := step_ σ 1 it

/-- `operator--`, json.hpp:9672-9698 -/
def decr (σ : Store F) (it : Iter) : Outcome Iter := step_ σ (-1) it

/-- comparing two positions of one map or vector: two that were never set are equal, one cannot be
compared with one that was set -/
def cmpPos (f : Nat → Nat → Bool) : Option Nat → Option Nat → Outcome Bool
  | some i, some j => .ok (f i j)
  | none, none => .ok (f 0 0)
  | _, _ => .ub

/-- `operator==`, json.hpp:9704-9725 -/
def iterEq (σ : Store F) (x y : Iter) : Outcome Bool :=
  if x.owner ≠ y.owner then .throws "invalid_iterator.212"
  else
    match x.owner with
    | none => .assertFail
    | some a =>
      match σ a with
      | .obj _ => cmpPos (· == ·) x.objIt y.objIt
      | .arr _ => cmpPos (· == ·) x.arrIt y.arrIt
      | _ => .ok (x.prim == y.prim)

/-- `operator!=`, json.hpp:9731-9734 -/
def iterNe (σ : Store F) (x y : Iter) : Outcome Bool := iterEq σ x y >>= fun b => .ok !b

/-- `operator<`, json.hpp:9740-9761 -/
def iterLt (σ : Store F) (x y : Iter) : Outcome Bool :=
  if x.owner ≠ y.owner then .throws "invalid_iterator.212"
  else
    match x.owner with
    | none => .assertFail
    | some a =>
      match σ a with
      | .obj _ => .throws "invalid_iterator.213"
      | .arr _ => cmpPos (fun i j => decide (i < j)) x.arrIt y.arrIt
      | _ => .ok (decide (x.prim < y.prim))

/-- `operator<=`, json.hpp:9767-9770 -/
def iterLe (σ : Store F) (x y : Iter) : Outcome Bool := iterLt σ y x >>= fun b => .ok !b

/-- `operator>`, json.hpp:9776-9779 -/
def iterGt (σ : Store F) (x y : Iter) : Outcome Bool := iterLe σ x y >>= fun b => .ok !b

/-- `operator>=`, json.hpp:9785-9788 -/
def iterGe (σ : Store F) (x y : Iter) : Outcome Bool := iterLt σ x y >>= fun b => .ok !b

/-- `operator+=` and the operators `+`, json.hpp:9794-9817, 9832-9848 -/
def iterAdd (σ : Store F) (it : Iter) (n : Int) : Outcome Iter :=
  match it.owner with
  | none => .assertFail
  | some a =>
    match σ a with
    | .obj _ => .throws "invalid_iterator.209"
    | .arr xs => advance xs.length n it.arrIt >>= fun p => .ok { it with arrIt := p }
    | _ => diffT (it.prim + n) >>= fun p => .ok { it with prim := p }

/-- `operator-=` and `operator-` with a number, json.hpp:9823-9826, 9854-9859 -/
def iterSub (σ : Store F) (it : Iter) (n : Int) : Outcome Iter := diffT (-n) >>= fun m => iterAdd σ it m

/-- `operator-` of two iterators, json.hpp:9865-9880: whether they belong to one value is not checked.
The difference of iterators of two vectors is undefined. -/
def iterDiff (σ : Store F) (x y : Iter) : Outcome Int :=
  match x.owner with
  | none => .assertFail
  | some a =>
    match σ a with
    | .obj _ => .throws "invalid_iterator.209"
    | .arr _ =>
      match x.arrIt, y.arrIt with
      | some i, some j => if x.owner = y.owner then .ok (i - j) else .ub
      | none, none => .ok 0
      | _, _ => .ub
    | _ => diffT (x.prim - y.prim)

/-- `operator[]`, json.hpp:9886-9911 -/
def iterAt (σ : Store F) (it : Iter) (n : Int) : Outcome (Json F) :=
  match it.owner with
  | none => .assertFail
  | some a =>
    match σ a with
    | .obj _ => .throws "invalid_iterator.208"
    | .arr xs =>
      match it.arrIt with
      | none => .ub
      | some i =>
        if 0 ≤ (i : Int) + n then
          match xs[((i : Int) + n).toNat]? with
          | some v => .ok v
          | none => .ub
        else .ub
    | .null => .throws "invalid_iterator.214"
    | v => diffT (-n) >>= fun m => if it.prim = m then .ok v else .throws "invalid_iterator.214"

/-- `key`, json.hpp:9917-9927; the key at the end of a map is undefined -/
def iterKey (σ : Store F) (it : Iter) : Outcome Bytes :=
  match it.owner with
  | none => .assertFail
  | some a =>
    match σ a with
    | .obj ms =>
      match it.objIt with
      | none => .ub
      | some i =>
        match ms[i]? with
        | some e => .ok e.1
        | none => .ub
    | _ => .throws "invalid_iterator.207"

/-! ## Loops -/

/-- `for (it = first; it != last; ++it)`: what `*it` gives, one after the other; at most `n` rounds -/
def walk (σ : Store F) : Nat → Iter → Iter → Outcome (List (Json F))
  | 0, _, _ => .diverges
  | n + 1, it, last =>
    iterNe σ it last >>= fun go =>
      if go then
        deref σ it >>= fun v => incr σ it >>= fun it' => walk σ n it' last >>= fun vs => .ok (v :: vs)
      else .ok []

/-- `std::reverse_iterator::operator*`, as `json_reverse_iterator` has it (json.hpp:9983, 10061-10065): the
value before the iterator inside -/
def revDeref (σ : Store F) (base : Iter) : Outcome (Json F) := decr σ base >>= fun it => deref σ it

/-- the key at a reverse iterator, json.hpp:10054-10058 -/
def revKey (σ : Store F) (base : Iter) : Outcome Bytes := decr σ base >>= fun it => iterKey σ it

/-- a loop from `rbegin`, that is `end`, to `rend`, that is `begin` (json.hpp:18816-18819, 18853-18856); `++` of the
iterator is `--` of the one inside (10006-10009) -/
def revWalk (σ : Store F) : Nat → Iter → Iter → Outcome (List (Json F))
  | 0, _, _ => .diverges
  | n + 1, it, last =>
    iterNe σ it last >>= fun go =>
      if go then
        revDeref σ it >>= fun v => decr σ it >>= fun it' => revWalk σ n it' last >>= fun vs => .ok (v :: vs)
      else .ok []

/-- `iteration_proxy_value`, json.hpp:3308-3319: the iterator, the index, the index of the text kept, and
that text -/
structure Item where
  anchor : Iter
  idx : Nat := 0
  last : Nat := 0
  text : Bytes := [0x30]

/-- `key` of an `iteration_proxy_value`, json.hpp:3351-3376; `int_to_string`, 3294-3297 -/
def itemKey (σ : Store F) (e : Item) : Outcome (Bytes × Item) :=
  match e.anchor.owner with
  | none => .assertFail
  | some a =>
    match σ a with
    | .arr _ =>
      let e' := if e.idx ≠ e.last then { e with text := toStr e.idx, last := e.idx } else e
      .ok (e'.text, e')
    | .obj _ => iterKey σ e.anchor >>= fun k => .ok (k, e)
    | _ => .ok ([], e)

/-- `for (auto& e : j.items())`, json.hpp:3330-3348, 3386-3408: in each round the value, and, if the flag
for the round says so, the key.  There are as many flags as rounds can be run. -/
def itemWalk (σ : Store F) : List Bool → Item → Iter → Outcome (List (Option Bytes × Json F))
  | [], _, _ => .diverges
  | f :: fs, e, last =>
    iterNe σ e.anchor last >>= fun go =>
      if go then
        (if f then itemKey σ e >>= fun p => .ok (some p.1, p.2) else .ok (none, e)) >>= fun p =>
          deref σ p.2.anchor >>= fun v =>
            incr σ p.2.anchor >>= fun it =>
              itemWalk σ fs { p.2 with anchor := it, idx := p.2.idx + 1 } last >>= fun rest =>
                .ok ((p.1, v) :: rest)
      else .ok []

/-! ## Size and lookup -/

/-- `size`, json.hpp:19196-19224 -/
def size_ : Json F → Nat
  | .null => 0
  | .arr xs => xs.length
  | .obj ms => ms.length
  | _ => 1

/-- `empty`, json.hpp:19124-19152 -/
def empty_ : Json F → Bool
  | .null => true
  | .arr xs => xs.isEmpty
  | .obj ms => ms.isEmpty
  | _ => false

/-- `front`, json.hpp:18130-18133 -/
def front (σ : Store F) (a : Nat) : Outcome (Json F) := deref σ (begin_ σ a)

/-- `back`, json.hpp:18174-18179 -/
def back (σ : Store F) (a : Nat) : Outcome (Json F) := decr σ (end_ σ a) >>= fun it => deref σ it

/-- the position of a key in a map, or the end: `std::map::find` -/
def findPos (k : Bytes) : List (Bytes × Json F) → Nat
  | [] => 0
  | (k', _) :: ms => if keyLt k k' ∨ keyLt k' k then findPos k ms + 1 else 0

/-- `find`, json.hpp:18521-18531 -/
def find_ (σ : Store F) (a : Nat) (k : Bytes) : Iter :=
  match σ a with
  | .obj ms => { end_ σ a with objIt := some (findPos k ms) }
  | _ => end_ σ a

/-- `count`, json.hpp:18572-18576 -/
def count_ (k : Bytes) : Json F → Nat
  | .obj ms => if findPos k ms = ms.length then 0 else 1
  | _ => 0

/-- `contains` with a key, json.hpp:18605-18608 -/
def contains_ (k : Bytes) : Json F → Bool
  | .obj ms => findPos k ms != ms.length
  | _ => false

/-- `value` with a key and a default value, json.hpp:18004-18020; `conv` converts to the type asked for -/
def value_ (conv : Json F → Outcome T) (σ : Store F) (a : Nat) (k : Bytes) (d : T) : Outcome T :=
  match σ a with
  | .obj _ =>
    iterNe σ (find_ σ a k) (end_ σ a) >>= fun found =>
      if found then deref σ (find_ σ a k) >>= fun v => conv v else .ok d
  | _ => .throws "type_error.306"

/-! ## Removing -/

/-- `clear`, json.hpp:19336-19385; `zero` is the floating-point number 0 -/
def clear_ (zero : F) : Json F → Json F
  | .null => .null
  | .bool _ => .bool false
  | .int _ => .int 0
  | .uint _ => .uint 0
  | .float _ => .float zero
  | .str _ => .str []
  | .arr _ => .arr []
  | .obj _ => .obj []

/-- `erase` of a vector or map at a position: what is left, and the position after -/
def erasePos {α : Type} (xs : List α) : Option Nat → Outcome (List α × Nat)
  | none => .ub
  | some i => if i < xs.length then .ok (xs.eraseIdx i, i) else .ub

/-- `erase` of a vector or map from a position to another -/
def eraseRangePos {α : Type} (xs : List α) : Option Nat → Option Nat → Outcome (List α × Nat)
  | some i, some j => if i ≤ j ∧ j ≤ xs.length then .ok (xs.take i ++ xs.drop j, i) else .ub
  | _, _ => .ub

/-- `erase` with an iterator, json.hpp:18241-18294: the value after, and the iterator given back -/
def erase1 (σ : Store F) (a : Nat) (pos : Iter) : Outcome (Json F × Iter) :=
  if pos.owner ≠ some a then .throws "invalid_iterator.202"
  else
    match σ a with
    | .null => .throws "type_error.307"
    | .obj ms => erasePos ms pos.objIt >>= fun r => .ok (.obj r.1, { end_ σ a with objIt := some r.2 })
    | .arr xs => erasePos xs pos.arrIt >>= fun r => .ok (.arr r.1, { end_ σ a with arrIt := some r.2 })
    | _ => if pos.prim ≠ 0 then .throws "invalid_iterator.205" else .ok (.null, end_ σ a)

/-- `erase` with two iterators, json.hpp:18346-18402 -/
def erase2 (σ : Store F) (a : Nat) (first last : Iter) : Outcome (Json F × Iter) :=
  if first.owner ≠ some a ∨ last.owner ≠ some a then .throws "invalid_iterator.203"
  else
    match σ a with
    | .null => .throws "type_error.307"
    | .obj ms =>
      eraseRangePos ms first.objIt last.objIt >>= fun r => .ok (.obj r.1, { end_ σ a with objIt := some r.2 })
    | .arr xs =>
      eraseRangePos xs first.arrIt last.arrIt >>= fun r => .ok (.arr r.1, { end_ σ a with arrIt := some r.2 })
    | _ =>
      if first.prim ≠ 0 ∨ last.prim ≠ 1 then .throws "invalid_iterator.204" else .ok (.null, end_ σ a)

/-- `erase` with a key, json.hpp:18433-18442: the value after, and the number of elements removed -/
def eraseK (k : Bytes) : Json F → Outcome (Json F × Nat)
  | .obj ms => .ok (.obj (eraseKey k ms), if findPos k ms = ms.length then 0 else 1)
  | _ => .throws "type_error.307"

/-- `erase` with an index, json.hpp:18468-18484 -/
def eraseI (i : Nat) : Json F → Outcome (Json F)
  | .arr xs => if xs.length ≤ i then .throws "out_of_range.401" else .ok (.arr (xs.eraseIdx i))
  | _ => .throws "type_error.307"

/-- the loop that removes the elements with some property,
`for (it = j.begin(); it != j.end(); ) if (p(*it)) it = j.erase(it); else ++it;`; a program that uses
`erase` (json.hpp:18241-18294) as its documentation suggests (18202-18204).  At most `n` rounds. -/
def eraseLoop (p : Json F → Bool) (a : Nat) : Nat → Store F → Iter → Outcome (Json F)
  | 0, _, _ => .diverges
  | n + 1, σ, it =>
    iterNe σ it (end_ σ a) >>= fun go =>
      if go then
        deref σ it >>= fun v =>
          if p v then erase1 σ a it >>= fun r => eraseLoop p a n (σ.put a r.1) r.2
          else incr σ it >>= fun it' => eraseLoop p a n σ it'
      else .ok (σ a)

/-! ## Adding -/

/-- `std::map::emplace` and `insert`: nothing happens if the key is there -/
def emplaceKey (k : Bytes) (v : Json F) (ms : List (Bytes × Json F)) : List (Bytes × Json F) :=
  match lookup k ms with
  | some _ => ms
  | none => setKey k v ms

/-- `push_back` of a `basic_json`, json.hpp:19407-19462, and `+=` (19434-19438, 19468-19472); the value added
is at the address `b`, and is read after a null has become an array.  What moving leaves behind is left
out. -/
def pushBack (σ : Store F) (a b : Nat) : Outcome (Json F) :=
  match σ a with
  | .null => .ok (.arr [(σ.put a (.arr [])) b])
  | .arr xs => .ok (.arr (xs ++ [σ b]))
  | _ => .throws "type_error.308"

/-- `push_back` of a member, json.hpp:19494-19512 -/
def pushMember (k : Bytes) (v : Json F) : Json F → Outcome (Json F)
  | .null => .ok (.obj (emplaceKey k v []))
  | .obj ms => .ok (.obj (emplaceKey k v ms))
  | _ => .throws "type_error.308"

/-- `emplace_back`, json.hpp:19597-19620, with the value made from the arguments -/
def emplaceBack (v : Json F) : Json F → Outcome (Json F)
  | .null => .ok (.arr [v])
  | .arr xs => .ok (.arr (xs ++ [v]))
  | _ => .throws "type_error.311"

/-- `emplace`, json.hpp:19650-19674: the value after, the iterator, and whether there is a new element -/
def emplace (a : Nat) (k : Bytes) (v : Json F) : Json F → Outcome (Json F × Iter × Bool)
  | .null => .ok (.obj [(k, v)], { owner := some a, objIt := some 0 }, true)
  | .obj ms =>
    .ok (.obj (emplaceKey k v ms), { owner := some a, objIt := some (findPos k (emplaceKey k v ms)) },
      (lookup k ms).isNone)
  | _ => .throws "type_error.311"

/-- `insert_iterator`, json.hpp:19680-19694: the vector after, and the position of the first new element -/
def insertPos (vs xs : List (Json F)) : Option Nat → Outcome (List (Json F) × Nat)
  | none => .ub
  | some i => if i ≤ xs.length then .ok (xs.take i ++ vs ++ xs.drop i, i) else .ub

/-- `insert` of one value, of several copies (`vs` are `cnt` times the value), and of a list, json.hpp:19718-19734,
19769-19785, 19870-19886 -/
def insertL (σ : Store F) (a : Nat) (pos : Iter) (vs : List (Json F)) : Outcome (Json F × Iter) :=
  match σ a with
  | .arr xs =>
    if pos.owner ≠ some a then .throws "invalid_iterator.202"
    else insertPos vs xs pos.arrIt >>= fun r => .ok (.arr r.1, { owner := some a, arrIt := some r.2 })
  | _ => .throws "type_error.309"

/-- the values between the array positions of two iterators, whatever the kind of value they belong to
(json.hpp:19843): positions that were never set are equal -/
def slice (σ : Store F) (first last : Iter) : Outcome (List (Json F)) :=
  match first.arrIt, last.arrIt with
  | none, none => .ok []
  | some i, some j =>
    match first.owner.map σ with
    | some (.arr ys) => if i ≤ j ∧ j ≤ ys.length then .ok ((ys.drop i).take (j - i)) else .ub
    | _ => .ub
  | _, _ => .ub

/-- `insert` of the elements between two iterators, json.hpp:19817-19844 -/
def insertR (σ : Store F) (a : Nat) (pos first last : Iter) : Outcome (Json F × Iter) :=
  match σ a with
  | .arr xs =>
    if pos.owner ≠ some a then .throws "invalid_iterator.202"
    else if first.owner ≠ last.owner then .throws "invalid_iterator.210"
    else if first.owner = some a then .throws "invalid_iterator.211"
    else
      slice σ first last >>= fun vs =>
        insertPos vs xs pos.arrIt >>= fun r => .ok (.arr r.1, { owner := some a, arrIt := some r.2 })
  | _ => .throws "type_error.309"

/-- the members between two positions of a map -/
def between (ns : List (Bytes × Json F)) : Option Nat → Option Nat → Outcome (List (Bytes × Json F))
  | none, none => .ok []
  | some i, some j => if i ≤ j ∧ j ≤ ns.length then .ok ((ns.drop i).take (j - i)) else .ub
  | _, _ => .ub

/-- `insert` of the members between two iterators, json.hpp:19911-19932.  `std::map::insert` must not be
given iterators of the map itself. -/
def insertM (σ : Store F) (a : Nat) (first last : Iter) : Outcome (Json F) :=
  match σ a with
  | .obj ms =>
    if first.owner ≠ last.owner then .throws "invalid_iterator.210"
    else
      match first.owner with
      | none => .ub
      | some b =>
        match σ b with
        | .obj ns =>
          if b = a then .ub
          else
            between ns first.objIt last.objIt >>= fun es =>
              .ok (.obj (es.foldl (fun ms e => emplaceKey e.1 e.2 ms) ms))
        | _ => .throws "invalid_iterator.202"
  | _ => .throws "type_error.309"

/-- the loop of `update`, json.hpp:19972-19975, 20032-20035 -/
def assignAll (ms es : List (Bytes × Json F)) : List (Bytes × Json F) :=
  es.foldl (fun ms e => setKey e.1 e.2 ms) ms

/-- a null becomes an empty object, json.hpp:19956-19961, 20007-20012 -/
def nullToObj (σ : Store F) (a : Nat) : Store F :=
  match σ a with
  | .null => σ.put a (.obj [])
  | _ => σ

/-- `update` with the value at the address `b`, json.hpp:19953-19976: the value after, also if there is an
exception.  The loop over the value itself assigns to every member its own value. -/
def update1 (σ : Store F) (a b : Nat) : Json F × Outcome Unit :=
  let σ' := nullToObj σ a
  match σ' a with
  | .obj ms =>
    match σ' b with
    | .obj ns => (.obj (assignAll ms ns), .ok ())
    | _ => (σ' a, .throws "type_error.312")
  | v => (v, .throws "type_error.312")

/-- `update` with the members between two iterators, json.hpp:20004-20036 -/
def update2 (σ : Store F) (a : Nat) (first last : Iter) : Json F × Outcome Unit :=
  let σ' := nullToObj σ a
  match σ' a with
  | .obj ms =>
    if first.owner ≠ last.owner then (σ' a, .throws "invalid_iterator.210")
    else
      match first.owner with
      | none => (σ' a, .ub)
      | some b =>
        match σ' b with
        | .obj ns =>
          match between ns first.objIt last.objIt with
          | .ok es => (.obj (assignAll ms es), .ok ())
          | _ => (σ' a, .ub)
        | _ => (σ' a, .throws "invalid_iterator.202")
  | v => (v, .throws "type_error.312")

/-- the loop of `update`, json.hpp:19972-19975, over the members of a part of the value that is changed:
`p` is the place of the part, `i` the position in it.  Assigning to the member the part lies in destroys
the map the loop runs over. -/
def updateInnerLoop (p : Path) : Nat → Nat → List (Bytes × Json F) → Outcome (Json F)
  | 0, _, _ => .diverges
  | n + 1, i, ms =>
    match getAt p (.obj ms) with
    | some (.obj ns) =>
      match ns[i]? with
      | none => .ok (.obj ms)
      | some e =>
        match p with
        | .key k :: _ => if e.1 = k then .ub else updateInnerLoop p n (i + 1) (setKey e.1 e.2 ms)
        | _ => updateInnerLoop p n (i + 1) (setKey e.1 e.2 ms)
    | _ => .throws "type_error.312"

/-- `update` with a part of the value itself, json.hpp:19953-19976 -/
def updateInner (p : Path) : Json F → Outcome (Json F)
  | .obj ms =>
    match getAt p (.obj ms) with
    | some (.obj ns) => updateInnerLoop p (ns.length + 1) 0 ms
    | _ => .throws "type_error.312"
  | _ => .throws "type_error.312"

/-! ## Making values -/

/-- is the value an array of a string and something, json.hpp:16009 -/
def isPair : Json F → Bool
  | .arr [.str _, _] => true
  | _ => false

/-- the constructor from a list, json.hpp:16000-16050, with `emplace` for the members.  The type asked for
is `none` for `type_deduction`, `some false` for `array` (16090-16093), `some true` for `object`
(16134-16137). -/
def ofInit (want : Option Bool) (vs : List (Json F)) : Outcome (Json F) :=
  let isObj := vs.all isPair && want != some false
  if want = some true ∧ isObj = false then .throws "type_error.301"
  else if isObj then
    .ok (.obj (vs.foldl (fun ms v =>
      match v with
      | .arr [.str k, x] => emplaceKey k x ms
      | _ => ms) []))
  else .ok (.arr vs)

/-- `push_back` of a list, json.hpp:19549-19561 -/
def pushInit (vs : List (Json F)) (j : Json F) : Outcome (Json F) :=
  match j, vs with
  | .obj ms, [.str k, v] => pushMember k v (.obj ms)
  | _, _ => ofInit none vs >>= fun x =>
    match j with
    | .null => .ok (.arr [x])
    | .arr xs => .ok (.arr (xs ++ [x]))
    | _ => .throws "type_error.308"

/-- the constructor from two iterators, json.hpp:16226-16313 -/
def ofRange (σ : Store F) (first last : Iter) : Outcome (Json F) :=
  match first.owner, last.owner with
  | some a, some b =>
    if a ≠ b then .throws "invalid_iterator.201"
    else
      match σ a with
      | .null => .throws "invalid_iterator.206"
      | .obj ms => between ms first.objIt last.objIt >>= fun es => .ok (.obj es)
      | .arr _ => slice σ first last >>= fun vs => .ok (.arr vs)
      | v => if first.prim ≠ 0 ∨ last.prim ≠ 1 then .throws "invalid_iterator.204" else .ok v
  | _, _ => .assertFail

end Verif.Json
