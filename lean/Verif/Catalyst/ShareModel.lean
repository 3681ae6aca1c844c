import Verif.Catalyst.GridModel

/-!
# Model of the memory of the arrays of a grid, `ristra/io/catalyst/vtk/unstructuredGrid.h`

`GridModel` has the values of the arrays that are copied.  Here are the arrays that refer to the memory of the
caller, and the references to all array objects.  Of VTK the following is assumed, as documented there: `New` gives an
object one reference, `AddArray` takes another and gives up that of the array it replaces, `Delete` gives up one;
with its last reference an array is destroyed, and so are, with a grid, its references; the array made by
`vtkSOADataArrayTemplate::SetArray(comp, array, size, updateMaxId, save, …)` and
`vtkAOSDataArrayTemplate::SetArray(array, size, save, deleteMethod)` refers to `array`, which is released by
`delete[]` when the array is destroyed, if `save` is false and the method is 1.  Only the grid has references to the
arrays, and only the object of the library to the grid.
-/

namespace Verif.Catalyst
open Verif Verif.Strings.Spec

/-- memory of the caller: the values, whether it is still there, and whether it comes from `new[]` -/
structure Block (T : Type) where
  vals : List T
  live : Bool
  heap : Bool
deriving DecidableEq

/-- where the values of an array are: in memory of its own; in the first `n` places of the block `p`, which is released
with the array if `frees` -/
inductive Store (T : Type) where
  | own (vals : List T)
  | shared (p n : Nat) (frees : Bool)
deriving DecidableEq

/-- an array object of VTK; without references it is no more -/
structure Arr (T : Type) where
  name : Str
  comps : Nat
  store : Store T
  refs : Nat
deriving DecidableEq

/-- the three collections of arrays of a grid -/
inductive Kind where
  | point | cell | field
deriving DecidableEq

/-- memory, all array objects made so far, and which of them are in the grid -/
structure GridMem (T : Type) where
  mem : List (Block T)
  arrs : List (Arr T)
  at' : Kind → List Nat

/-- `delete[]` -/
def deleteBlock {T : Type} (mem : List (Block T)) (p : Nat) : Outcome (List (Block T)) :=
  match mem[p]? with
  | some b => if b.live && b.heap then .ok (mem.set p { b with live := false }) else .ub
  | none => .ub

/-- `UnRegister`, also `Delete`: a reference less -/
def unregister {T : Type} (w : GridMem T) (a : Nat) : Outcome (GridMem T) :=
  match w.arrs[a]? with
  | none => .ub
  | some x =>
    if x.refs = 0 then .ub
    else
      let w' := { w with arrs := w.arrs.set a { x with refs := x.refs - 1 } }
      if x.refs = 1 then
        match x.store with
        | .shared p _ true => deleteBlock w.mem p >>= fun mem => .ok { w' with mem := mem }
        | _ => .ok w'
      else .ok w'

/-- the name of an array object -/
def GridMem.name {T : Type} (w : GridMem T) (a : Nat) : Option Str := (w.arrs[a]?).map Arr.name

/-- `vtkFieldData::AddArray` in the collection `l`: the collection, and the array replaced -/
def putArray {T : Type} (w : GridMem T) (l : List Nat) (a : Nat) : List Nat × Option Nat :=
  match l with
  | [] => ([a], none)
  | b :: l => if w.name b = w.name a then (a :: l, some b) else (b :: (putArray w l a).1, (putArray w l a).2)

/-- a new array object, with the reference of `New`, put into a collection: the last lines of the functions that add
arrays, unstructuredGrid.h:309-310, 333-336, 420-425.  `del`: is `Delete` called at the end? -/
def GridMem.add {T : Type} (w : GridMem T) (k : Kind) (x : Arr T) (del : Bool) : Outcome (GridMem T) :=
  let a := w.arrs.length
  let w1 : GridMem T := { w with arrs := w.arrs ++ [{ x with refs := 2 }] }
  let c := putArray w1 (w1.at' k) a
  let w2 := { w1 with at' := fun k' => if k' = k then c.1 else w1.at' k' }
  (match c.2 with
    | none => Outcome.ok w2
    | some b => unregister w2 b) >>= fun w3 =>
  if del then unregister w3 a else .ok w3

/-- point data for `0`, else cell data -/
def kindOf (type : Int) : Kind := if type = 0 then .point else .cell

/-- `addFieldData`, unstructuredGrid.h:300-312: one value, the memory of which is kept (`save` is true) -/
def addFieldData {T : Type} (w : GridMem T) (name : Str) (p : Nat) : Outcome (GridMem T) :=
  w.add .field ⟨name, 1, .shared p 1 false, 0⟩ true

/-- `addVectorData` with one array, unstructuredGrid.h:409-426; `save` is `false`, the method `true`, which is 1.  The product is
one of `int`; negative numbers are left out. -/
def addVectorShared {T : Type} (w : GridMem T) (name : Str) (numPoints numComponents : Nat) (type : Int) (p : Nat) :
    Outcome (GridMem T) :=
  if numPoints * numComponents ≥ 2 ^ 31 then .ub
  else w.add (kindOf type) ⟨name, max 1 numComponents, .shared p (numPoints * numComponents) true, 0⟩ true

/-- the functions that copy, unstructuredGrid.h:315-337, 346-405, with the values that `GridModel` gives: there is no `Delete`
at their ends -/
def addCopied {T : Type} (w : GridMem T) (name : Str) (comps : Nat) (vals : List T) (type : Int) : Outcome (GridMem T) :=
  w.add (kindOf type) ⟨name, comps, .own vals, 0⟩ false

/-- the grid is destroyed with the object of the library, unstructuredGrid.h:61 -/
def dropAll {T : Type} : List Nat → GridMem T → Outcome (GridMem T)
  | [], w => .ok w
  | a :: l, w => unregister w a >>= dropAll l

def GridMem.drop {T : Type} (w : GridMem T) : Outcome (GridMem T) :=
  dropAll (w.at' .point ++ w.at' .cell ++ w.at' .field) { w with at' := fun _ => [] }

/-- the caller writes into their memory -/
def GridMem.write {T : Type} (w : GridMem T) (p i : Nat) (v : T) : Outcome (GridMem T) :=
  match w.mem[p]? with
  | some b => if b.live ∧ i < b.vals.length then .ok { w with mem := w.mem.set p { b with vals := b.vals.set i v } } else .ub
  | none => .ub

/-- the caller releases their memory, by `delete[]` -/
def GridMem.free {T : Type} (w : GridMem T) (p : Nat) : Outcome (GridMem T) :=
  deleteBlock w.mem p >>= fun mem => .ok { w with mem := mem }

/-- what a reader of the grid sees under a name: the number of components and the values -/
def GridMem.read {T : Type} (w : GridMem T) (k : Kind) (name : Str) : Outcome (Option (Nat × List T)) :=
  match (w.at' k).find? (fun a => w.name a = some name) with
  | none => .ok none
  | some a =>
    match w.arrs[a]? with
    | none => .ub
    | some x =>
      if x.refs = 0 then .ub
      else match x.store with
      | .own vals => .ok (some (x.comps, vals))
      | .shared p n _ =>
        match w.mem[p]? with
        | some b => if b.live ∧ n ≤ b.vals.length then .ok (some (x.comps, b.vals.take n)) else .ub
        | none => .ub

end Verif.Catalyst
