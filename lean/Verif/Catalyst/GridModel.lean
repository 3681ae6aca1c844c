import Verif.Common.Outcome
import Verif.Common.Loop
import Verif.Strings.Spec

/-!
# Model of `ristra/io/catalyst/vtk/unstructuredGrid.h`

Arrays passed by pointer are lists, reading past the end of which is undefined behaviour.  Of
VTK the following is assumed: `vtkPoints` and `vtkCellArray` are growing arrays, elements made
by growing but not set are undefined (`none`); `SetPoints` and `SetCells` take a reference to
the object given, so that later changes to it are seen in the grid; `SetCells(type, cells)`
records `type` once for each cell present at that time; objects are reference counted, `New` gives
the smart pointer the first reference, `Delete` takes one away and the object is destroyed with
the last one; `InsertNextValue` appends to a data array; `AddArray` replaces the array of the
same name or else appends.  The writers are not modelled.
-/

namespace Verif.Catalyst
open Verif Verif.Strings.Spec

/-- a point of VTK: three coordinates -/
abbrev Point (T : Type) := T × T × T

/-- the class, unstructuredGrid.h:36-107, with the parts of `uGrid` that these functions change -/
structure UGrid (T : Type) where
  pnts : List (Option (Point T))
  cells : List (List Nat)
  idx : Nat
  pointIDs : List Nat
  numOfPoints : Nat
  numOfCells : Nat
  /-- references to the objects `pnts` and `cells`; no reference, no object -/
  pntsRefs : Nat
  cellsRefs : Nat
  /-- is `pnts` in `uGrid`; the types of the cells of `uGrid` if `cells` is in it -/
  gridPnts : Bool
  gridTypes : Option (List Int)

/-- constructors, unstructuredGrid.h:111-154 -/
def UGrid.new (T : Type) : UGrid T := ⟨[], [], 0, [], 0, 0, 1, 1, false, none⟩

/-- `for (x : xs) s = step(s, x)` -/
def loopM {σ α : Type} (step : σ → α → Outcome σ) : List α → σ → Outcome σ
  | [], s => .ok s
  | x :: xs, s => step s x >>= loopM step xs

/-- three consecutive elements of an array -/
def read3 {T : Type} (data : List T) (k : Nat) : Outcome (Point T) :=
  match data[k]?, data[k + 1]?, data[k + 2]? with
  | some x, some y, some z => .ok (x, y, z)
  | _, _, _ => .ub

/-- the index expressions `i*3 + 0`, ... of type `int` -/
def read3i {T : Type} (data : List T) (i : Nat) : Outcome (Point T) :=
  if i * 3 + 2 ≥ 2 ^ 31 then .ub else read3 data (i * 3)

/-- `vtkPoints::InsertPoint(i, p)` -/
def insertAt {P : Type} (l : List (Option P)) (i : Nat) (p : P) : List (Option P) :=
  if i < l.length then l.set i (some p) else l ++ List.replicate (i - l.length) none ++ [some p]

/-- `vtkPoints::SetNumberOfPoints(n)` -/
def resize {P : Type} (l : List (Option P)) (n : Nat) : List (Option P) :=
  l.take n ++ List.replicate (n - l.length) none

/-- `setPointIDs`, unstructuredGrid.h:162-169 -/
def UGrid.setPointIDs {T : Type} (g : UGrid T) (ids : List Nat) : UGrid T :=
  { g with pointIDs := ids.foldl (fun acc i => acc ++ [i]) g.pointIDs }

/-- `insertNextPoint`, unstructuredGrid.h:172-177 -/
def UGrid.insertNextPoint3 {T : Type} (g : UGrid T) (x y z : T) : Outcome (UGrid T) :=
  if g.pntsRefs = 0 then .ub
  else .ok { g with pnts := g.pnts ++ [some (x, y, z)], numOfPoints := g.numOfPoints + 1 }

/-- `insertNextPoint`, unstructuredGrid.h:179-184 -/
def UGrid.insertNextPoint {T : Type} (g : UGrid T) (pointData : List T) : Outcome (UGrid T) :=
  (read3 pointData 0) >>= fun p => g.insertNextPoint3 p.1 p.2.1 p.2.2

/-- `insertNextPoints`, unstructuredGrid.h:187-201 -/
def UGrid.insertNextPoints {T : Type} (g : UGrid T) (pointData : List T) (numPoints : Nat) : Outcome (UGrid T) :=
  loopM (fun (g : UGrid T) i => read3i pointData i >>= fun p => g.insertNextPoint3 p.1 p.2.1 p.2.2)
    (List.range numPoints) g

/-- `addPoint`, unstructuredGrid.h:205-211 -/
def UGrid.addPoint {T : Type} (g : UGrid T) (pointData : List T) : Outcome (UGrid T) :=
  if g.pntsRefs = 0 ∨ g.cellsRefs = 0 then .ub
  else (read3 pointData 0) >>= fun p =>
    .ok { g with pnts := insertAt g.pnts g.idx p, cells := g.cells ++ [[g.idx]], idx := g.idx + 1 }

/-- `pushPointsToGrid`, unstructuredGrid.h:276-280; taking the same object again changes no count -/
def UGrid.push {T : Type} (g : UGrid T) (cellType : Int) : Outcome (UGrid T) :=
  if g.pntsRefs = 0 ∨ g.cellsRefs = 0 then .ub
  else .ok { g with
    gridPnts := true
    pntsRefs := if g.gridPnts then g.pntsRefs else g.pntsRefs + 1
    gridTypes := some (List.replicate g.cells.length cellType)
    cellsRefs := if g.gridTypes.isSome then g.cellsRefs else g.cellsRefs + 1 }

/-- `pushPointsToGrid`, unstructuredGrid.h:283-286 -/
def UGrid.pushPoints {T : Type} (g : UGrid T) : Outcome (UGrid T) :=
  if g.pntsRefs = 0 then .ub
  else .ok { g with gridPnts := true, pntsRefs := if g.gridPnts then g.pntsRefs else g.pntsRefs + 1 }

/-- `setPoints`, unstructuredGrid.h:219-237 -/
def UGrid.setPoints {T : Type} (g : UGrid T) (pointData : List T) (numPoints : Nat) (cellType : Int) :
    Outcome (UGrid T) :=
  if g.pntsRefs = 0 ∨ g.cellsRefs = 0 then .ub
  else
    loopM (fun (g : UGrid T) i => read3i pointData i >>= fun p =>
        .ok { g with pnts := g.pnts.set i (some p), cells := g.cells ++ [[g.idx]], idx := g.idx + 1 })
      (List.range numPoints) { g with pnts := resize g.pnts numPoints } >>= fun g => g.push cellType

/-- `insertNextCell`, unstructuredGrid.h:247-263 -/
def UGrid.insertNextCell {T : Type} (g : UGrid T) (ids : List Nat) : Outcome (UGrid T) :=
  if g.cellsRefs = 0 then .ub
  else .ok { g with cells := g.cells ++ [ids], numOfCells := g.numOfCells + 1 }

/-- `reset`, unstructuredGrid.h:289-295 -/
def UGrid.reset {T : Type} (g : UGrid T) : Outcome (UGrid T) :=
  if g.pntsRefs = 0 ∨ g.cellsRefs = 0 then .ub
  else .ok { g with pntsRefs := g.pntsRefs - 1, cellsRefs := g.cellsRefs - 1, idx := 0 }

/-! ## Data arrays -/

/-- a data array of VTK: values in tuples of `comps` -/
structure DataArray (T : Type) where
  name : Str
  comps : Nat
  values : List T
deriving DecidableEq

/-- the point data and the cell data of a grid -/
structure Fields (T : Type) where
  point : List (DataArray T)
  cell : List (DataArray T)
deriving DecidableEq

/-- `vtkFieldData::AddArray` -/
def addArray {T : Type} (l : List (DataArray T)) (a : DataArray T) : List (DataArray T) :=
  match l with
  | [] => [a]
  | b :: l => if b.name = a.name then a :: l else b :: addArray l a

/-- the common end of the functions, e.g. unstructuredGrid.h:333-336 -/
def attach {T : Type} (F : Fields T) (type : Int) (a : DataArray T) : Fields T :=
  if type = 0 then { F with point := addArray F.point a } else { F with cell := addArray F.cell a }

/-- element of an array -/
def readAt {T : Type} (data : List T) (i : Nat) : Outcome T :=
  match data[i]? with
  | some x => .ok x
  | none => .ub

/-- `InsertNextValue(data[i])` -/
def appendAt {T : Type} (vs : List T) (data : List T) (i : Nat) : Outcome (List T) :=
  readAt data i >>= fun x => .ok (vs ++ [x])

/-- `addVectorData` with three arrays, unstructuredGrid.h:315-337 -/
def addVector3 {T : Type} (F : Fields T) (varName : Str) (numPoints : Nat) (type : Int) (d1 d2 d3 : List T) :
    Outcome (Fields T) :=
  loopM (fun vs i => appendAt vs d1 i >>= fun vs => appendAt vs d2 i >>= fun vs => appendAt vs d3 i)
      (List.range numPoints) [] >>= fun vs => .ok (attach F type ⟨varName, 3, vs⟩)

/-- `addScalarData`, unstructuredGrid.h:346-367; `setScalarData`, unstructuredGrid.h:500-521, is the same -/
def addScalar {T : Type} (F : Fields T) (varName : Str) (data : List T) (numElements : Nat) (discretization : Int) :
    Outcome (Fields T) :=
  loopM (fun vs i => appendAt vs data i) (List.range numElements) [] >>= fun vs => .ok (attach F discretization ⟨varName, 1, vs⟩)

/-- `addVectorData`, unstructuredGrid.h:370-386; `addTensorData`, unstructuredGrid.h:389-405, `setVectorData` and
`setTensorData`, unstructuredGrid.h:524-559, are the same.  `SetNumberOfComponents` makes at least one. -/
def addVector {T : Type} (F : Fields T) (varName : Str) (data : List (List T)) (numElements : Nat)
    (discretization : Int) : Outcome (Fields T) :=
  loopM (fun vs i => loopM (fun vs dn => appendAt vs dn i) data vs) (List.range numElements) [] >>= fun vs => .ok (attach F discretization ⟨varName, max 1 data.length, vs⟩)

end Verif.Catalyst
