import Verif.FixedVector.Model

/-!
# `ristra/utils/fixed_vector.h` when copying or moving an element throws

Each operation as the sequence of its effects: changes of `length_`, and assignments to cells,
each of which may throw.  Elements are moved one by one, as for all types whose assignment can
throw.  Cells are `std::array` elements and always constructed, so an assignment that throws
leaves its target either as it was or with some other value, and its source alone.
-/

namespace Verif.FixedVector

/-- one effect -/
inductive Micro (T : Type u) where
  /-- `length_ = n` -/
  | setLen (n : Nat)
  /-- `data_[i] = x` -/
  | put (i : Nat) (x : T)
  /-- `data_[dst] = std::move(data_[src])`, or a copy -/
  | move (src dst : Nat)
  /-- constructing a temporary -/
  | build
deriving Repr, DecidableEq

/-- `std::fill_n`, or `std::copy` from elsewhere -/
def puts (i : Nat) : List T → List (Micro T)
  | [] => []
  | x :: xs => .put i x :: puts (i + 1) xs

/-- `std::copy` or `std::move` of `n` cells, from left to right -/
def moves (src dst : Nat) : Nat → List (Micro T)
  | 0 => []
  | n + 1 => .move src dst :: moves (src + 1) (dst + 1) n

/-- shifting the elements from `pos` to the right, then storing `ys` there and adjusting the length; nothing for
no elements.  fixed_vector.h:177-269 -/
def insertMicro (len pos : Nat) (ys : List T) : List (Micro T) :=
  if ys = [] then [] else moves pos (pos + ys.length) (len - pos) ++ puts pos ys ++ [.setLen (len + ys.length)]

/-- the effects of an operation on a vector of `len` elements, in the order of the code -/
def effects (len : Nat) : Op T → List (Micro T)
  -- fixed_vector.h:310-320: the right operand, then `length_++`, then the assignment
  | .pushBack x => [.setLen (len + 1), .put len x]
  -- 329-333
  | .popBack => if len = 0 then [] else [.setLen (len - 1)]
  -- 175
  | .clear => [.setLen 0]
  -- 90-95
  | .assignFill n x => .setLen n :: puts 0 (List.replicate n x)
  -- 97-110
  | .assignList xs => .setLen xs.length :: puts 0 xs
  -- 340-346
  | .resizeFill n x => puts len (List.replicate (n - len) x) ++ [.setLen n]
  | .insert pos x => insertMicro len pos [x]
  | .insertFill pos n x => insertMicro len pos (List.replicate n x)
  | .insertRange pos ys => insertMicro len pos ys
  | .insertIList pos ys => insertMicro len pos ys
  -- 273-288
  | .erase pos => if len = 0 then [] else
      (if pos + 1 ≠ len then moves (pos + 1) pos (len - (pos + 1)) else []) ++ [.setLen (len - 1)]
  -- 290-308
  | .eraseRange a b => if len = 0 then [] else if a = b then [] else
      (if b ≠ len then moves b a (len - b) else []) ++ [.setLen (len - (b - a))]
  -- 115-116
  | .setAt i x => [.put i x]

/-- `emplace_back(args...)` making the value `x`, fixed_vector.h:322-327: the temporary is made first -/
def emplaceEffects (len : Nat) (x : T) : List (Micro T) := [.build, .setLen (len + 1), .put len x]

/-- an effect that does not throw -/
def Micro.apply (res : T → T) (v : FV T) : Micro T → FV T
  | .setLen n => ⟨v.cells, n⟩
  | .put i x => ⟨v.cells.set i x, v.len⟩
  | .move src dst =>
    match v.cells[src]? with
    | some x => ⟨(v.cells.set src (res x)).set dst x, v.len⟩
    | none => v
  | .build => v

/-- all effects, none of which throws -/
def applyAll (res : T → T) (v : FV T) (ms : List (Micro T)) : FV T := ms.foldl (Micro.apply res) v

/-- the target of an assignment that throws: as it was, or with some value -/
def torn (v : FV T) (i : Nat) (y : Option T) : FV T :=
  match y with
  | none => v
  | some y => ⟨v.cells.set i y, v.len⟩

/-- the vector after `k` assignments have succeeded and the next throws; `none` if there are not that
many -/
def thrown (res : T → T) (v : FV T) : List (Micro T) → Nat → Option T → Option (FV T)
  | [], _, _ => none
  | .setLen n :: ms, k, y => thrown res ⟨v.cells, n⟩ ms k y
  | .put i _ :: _, 0, y => some (torn v i y)
  | .move _ dst :: _, 0, y => some (torn v dst y)
  | .build :: _, 0, _ => some v
  | m :: ms, k + 1, y => thrown res (m.apply res v) ms k y

/-- `operator=` from another vector, fixed_vector.h:61 (defaulted): the members in the order of their
declaration, 372-374, so all cells first and then the length -/
def copyAssignEffects (o : FV T) : List (Micro T) := puts 0 o.cells ++ [.setLen o.len]

/-- the two vectors when `a.swap(b)`, fixed_vector.h:348-352, has exchanged the lengths and `k` pairs of cells and
exchanging the next pair throws, leaving those two cells as they were or with some values -/
def swapThrown (a b : FV T) (k : Nat) (y z : Option T) : Option (FV T × FV T) :=
  if k < a.cells.length then
    some (torn ⟨b.cells.take k ++ a.cells.drop k, b.len⟩ k y, torn ⟨a.cells.take k ++ b.cells.drop k, a.len⟩ k z)
  else none

end Verif.FixedVector
