/-!
# What a bounded vector is supposed to do

Independent of the code: sequences are plain lists, and each operation is described
by the obvious list expression.  `allowed cap xs op` is the documented range of the
operation; `result xs op` the sequence afterwards; `returned xs op` the position the
returned iterator must designate (operations returning `void` return nothing).
-/

namespace Verif.FixedVector

/-- The operations of the container (values are passed by value). -/
inductive Op (T : Type u) where
  | pushBack (x : T)
  | popBack
  | clear
  | assignFill (n : Nat) (x : T)
  | assignList (xs : List T)
  | resizeFill (n : Nat) (x : T)
  | insert (pos : Nat) (x : T)
  | insertFill (pos n : Nat) (x : T)
  | insertRange (pos : Nat) (ys : List T)
  | insertIList (pos : Nat) (ys : List T)
  | erase (pos : Nat)
  | eraseRange (first last : Nat)
  | setAt (i : Nat) (x : T)
deriving Repr

namespace Spec

/-- positions / indices are inside the current sequence -/
def positionsValid (xs : List T) : Op T → Prop
  | .insert pos _ => pos ≤ xs.length
  | .insertFill pos _ _ => pos ≤ xs.length
  | .insertRange pos _ => pos ≤ xs.length
  | .insertIList pos _ => pos ≤ xs.length
  | .erase pos => pos < xs.length
  | .eraseRange first last => first ≤ last ∧ last ≤ xs.length
  | .setAt i _ => i < xs.length
  | _ => True

/-- the sequence after the operation -/
def result (xs : List T) : Op T → List T
  | .pushBack x => xs ++ [x]
  | .popBack => xs.take (xs.length - 1)
  | .clear => []
  | .assignFill n x => List.replicate n x
  | .assignList ys => ys
  | .resizeFill n x => xs.take n ++ List.replicate (n - xs.length) x
  | .insert pos x => xs.take pos ++ [x] ++ xs.drop pos
  | .insertFill pos n x => xs.take pos ++ List.replicate n x ++ xs.drop pos
  | .insertRange pos ys => xs.take pos ++ ys ++ xs.drop pos
  | .insertIList pos ys => xs.take pos ++ ys ++ xs.drop pos
  | .erase pos => xs.take pos ++ xs.drop (pos + 1)
  | .eraseRange first last => xs.take first ++ xs.drop last
  | .setAt i x => xs.set i x

/-- the operation fits the capacity -/
def fits (cap : Nat) (xs : List T) (op : Op T) : Prop := (result xs op).length ≤ cap

/-- the operation is used within its documented range -/
def allowed (cap : Nat) (xs : List T) (op : Op T) : Prop :=
  positionsValid xs op ∧ fits cap xs op

/-- position designated by the returned iterator -/
def returned : Op T → Option Nat
  | .insert pos _ => some pos
  | .insertFill pos _ _ => some pos
  | .insertRange pos _ => some pos
  | .insertIList pos _ => some pos
  | .erase pos => some pos
  | .eraseRange first _ => some first
  | _ => none

/-- a history all of whose steps are within range, from `xs` to `ys` -/
inductive History (cap : Nat) : List T → List (Op T) → List T → Prop
  | nil (xs) : History cap xs [] xs
  | cons {xs op ops ys} : allowed cap xs op → History cap (result xs op) ops ys →
      History cap xs (op :: ops) ys

end Spec
end Verif.FixedVector
