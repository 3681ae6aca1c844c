import Verif.Common.Outcome

/-!
# Model of `ristra/utils/array_ref.h` and of the checked access of `const_string`

A view is a pair (offset into a base array, length): members `ptr_` and `length_`,
lines 226-227.  `size_type` is unbounded here (no wrap-around of `ptr_+n`).
-/

namespace Verif.ArrayRef

/-- array_ref.h:226-227 -/
structure Ref where
  off : Nat
  len : Nat
deriving Repr, DecidableEq

/-- `array_ref(data(), size())` of a whole container: array_ref.h:75-98 -/
def ofBase (base : List T) : Ref := ⟨0, base.length⟩

/-- array_ref.h:103-108, the recursion of the code kept as it is -/
def substr (r : Ref) (pos n : Nat) : Ref :=
  if pos > r.len then substr r r.len n
  else if n > r.len - pos then substr r pos (r.len - pos)
  else ⟨r.off + pos, n⟩
termination_by (pos - r.len) + (n - (r.len - pos))
decreasing_by all_goals omega

/-- array_ref.h:199-203 -/
def removePrefix (r : Ref) (n : Nat) : Outcome Ref := do
  Outcome.assert (r.len ≥ n)
  .ok ⟨r.off + n, r.len - n⟩

/-- array_ref.h:208-211 -/
def removeSuffix (r : Ref) (n : Nat) : Outcome Ref := do
  Outcome.assert (r.len ≥ n)
  .ok ⟨r.off, r.len - n⟩

/-- array_ref.h:214-216 -/
def popBack (r : Ref) : Outcome Ref := removeSuffix r 1
/-- array_ref.h:219-221 -/
def popFront (r : Ref) : Outcome Ref := removePrefix r 1

/-- reading `ptr_[i]`: undefined outside the base array -/
def deref (base : List T) (i : Nat) : Outcome T :=
  match base[i]? with
  | some x => .ok x
  | none => .ub

/-- array_ref.h:138 -/
def get (base : List T) (r : Ref) (i : Nat) : Outcome T := deref base (r.off + i)

/-- array_ref.h:139-144 -/
def at' (base : List T) (r : Ref) (i : Nat) : Outcome T :=
  if i ≥ r.len then .outOfRange else deref base (r.off + i)

/-- array_ref.h:146-147 (`length_-1` wraps for an empty view: out of range) -/
def front (base : List T) (r : Ref) : Outcome T := deref base r.off
/-- array_ref.h:147: `ptr_[length_-1]` -/
def back (base : List T) (r : Ref) : Outcome T :=
  if r.len = 0 then .ub else deref base (r.off + (r.len - 1))

/-- array_ref.h:170-185: copies `[begin(), end())` element by element -/
def vecLoop (base : List T) (i : Nat) : Nat → Outcome (List T)
  | 0 => .ok []
  | n + 1 => do
    let x ← deref base i
    let xs ← vecLoop base (i + 1) n
    .ok (x :: xs)
/-- `vec()`, array_ref.h:173-175 -/
def vec (base : List T) (r : Ref) : Outcome (List T) := vecLoop base r.off r.len

/-- the narrowing operations -/
inductive Op where
  | substr (pos n : Nat)
  | removePrefix (n : Nat)
  | removeSuffix (n : Nat)
  | popFront
  | popBack
deriving Repr

/-- one narrowing operation, array_ref.h:187-221 -/
def step (r : Ref) : Op → Outcome Ref
  | .substr pos n => .ok (substr r pos n)
  | .removePrefix n => removePrefix r n
  | .removeSuffix n => removeSuffix r n
  | .popFront => popFront r
  | .popBack => popBack r

/-- narrowing operations in turn, stopping at the first that does not return -/
def run (r : Ref) : List Op → Outcome Ref
  | [] => .ok r
  | op :: ops => do
    let r ← step r op
    run r ops

/-- `const_string::operator[]`, `ristra/utils/const_string.h` lines 29-33: `chars` is the
character array including the terminating NUL (`N = chars.length`, `sz_ = N-1`). -/
def constStringAt (chars : List Char) (n : Nat) : Outcome Char :=
  if n < chars.length - 1 then deref chars n else .outOfRange

end Verif.ArrayRef
