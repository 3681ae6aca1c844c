import Verif.Catalyst.GridModel

/-!
# Model of `ristra/io/catalyst/flecsale_unstructuredGrid.h`

The mesh is given by what its queries return.  `fl` is the conversion of a coordinate to
`float`.  The writers for debugging, the timers and the wrappers `addScalar`, `addVector`,
`addTensor` (one call each, to the functions of `GridModel.lean`) are left out.
-/

namespace Verif.Catalyst
open Verif

/-- a cell: its id, the ids of its vertices (`mesh.vertices(c)`), its faces (`mesh.faces(c)`) -/
structure MCell where
  id : Nat
  verts : List Nat
  faces : List Nat
deriving DecidableEq

/-- the mesh as seen through its queries; lists are in the order of iteration -/
structure Mesh (T : Type) where
  dims : Nat
  verts : List (Nat × List T)
  cells : List MCell
  faceVerts : Nat → List Nat
  faceCells : Nat → List Nat
  owned : List Nat

/-- `double xyz[3] = {0,0,0}; std::copy(coord.begin(), coord.end(), xyz)`, flecsale_unstructuredGrid.h:109-110 -/
def pad3 {T : Type} [Zero T] (coord : List T) : Outcome (Point T) :=
  match coord with
  | [] => .ok (0, 0, 0)
  | [x] => .ok (x, 0, 0)
  | [x, y] => .ok (x, y, 0)
  | [x, y, z] => .ok (x, y, z)
  | _ => .ub

/-- `writePointsToGrid`, flecsale_unstructuredGrid.h:98-117: the points of the grid -/
def writePointsToGrid {T : Type} [Zero T] (m : Mesh T) : Outcome (List (Option (Point T))) :=
  loopM (fun pts v => pad3 v.2 >>= fun xyz => if v.1 < pts.length then .ok (pts.set v.1 (some xyz)) else .ub)
    m.verts (resize [] m.verts.length)

/-- one polyhedron as given to `InsertNextCell`: vertices, number of faces, face stream -/
structure Polyhedron where
  verts : List Nat
  numFaces : Nat
  faceData : List Nat
deriving DecidableEq

/-- the vertices of a face as seen from cell `c`, flecsale_unstructuredGrid.h:149-162 -/
def faceFrom {T : Type} (m : Mesh T) (c : Nat) (f : Nat) : Outcome (List Nat) :=
  match m.faceCells f with
  | [] => .ub
  | c0 :: _ => .ok (if c0 ≠ c then (m.faceVerts f).reverse else m.faceVerts f)

/-- the loop over the faces, flecsale_unstructuredGrid.h:145-168 and 341-364 -/
def faceStream {T : Type} (m : Mesh T) (c : MCell) : Outcome (List Nat) :=
  loopM (fun data f => faceFrom m c.id f >>= fun ids =>
    .ok (ids.foldl (fun d v => d ++ [v]) (data ++ [(m.faceVerts f).length]))) c.faces []

/-- the body of the loop over the cells, flecsale_unstructuredGrid.h:125-175 and 321-371 -/
def polyhedron {T : Type} (m : Mesh T) (c : MCell) : Outcome Polyhedron :=
  faceStream m c >>= fun data => .ok ⟨c.verts, c.faces.length, data⟩

/-- `writeCellsToGrid`, flecsale_unstructuredGrid.h:120-177: the cells added to the grid -/
def writeCellsToGrid {T : Type} (m : Mesh T) : Outcome (List Polyhedron) :=
  loopM (fun ps c => polyhedron m c >>= fun p => .ok (ps ++ [p])) m.cells []

/-- the body of the loop over the vertices in `createMesh`, flecsale_unstructuredGrid.h:282-297.  `vertex_coord`, of
size `num_nodes*num_dims`, is written and never read; only its size matters. -/
def createVertex {T : Type} [Zero T] (fl : T → T) (m : Mesh T) (g : UGrid T) (v : Nat × List T) : Outcome (UGrid T) :=
  if ∃ i, i < m.dims ∧ m.verts.length * m.dims ≤ v.1 * 3 + i then .ub
  else g.insertNextPoint (v.2.map fl ++ (if m.dims = 2 then [0] else []))

/-- the body of the loop over the owned cells, flecsale_unstructuredGrid.h:313 -/
def markOwned (ghost : List Bool) (c : Nat) : Outcome (List Bool) :=
  if c < ghost.length then .ok (ghost.set c false) else .ub

/-- `is_ghost_cell`, flecsale_unstructuredGrid.h:308-313 -/
def ghostFlags {T : Type} (m : Mesh T) : Outcome (List Bool) :=
  loopM markOwned m.owned (List.replicate m.cells.length true)

/-- the body of the loop over the cells in `createMesh`, flecsale_unstructuredGrid.h:318-371 -/
def createCell {T : Type} (m : Mesh T) (ghost : List Bool) (ps : List Polyhedron) (c : MCell) : Outcome (List Polyhedron) :=
  match ghost[c.id]? with
  | none => .ub
  | some true => .ok ps
  | some false => polyhedron m c >>= fun p => .ok (ps ++ [p])

/-- `createMesh`, flecsale_unstructuredGrid.h:247-379: the points and the cells of the grid -/
def createMesh {T : Type} [Zero T] (fl : T → T) (m : Mesh T) : Outcome (List (Option (Point T)) × List Polyhedron) :=
  loopM (createVertex fl m) m.verts (UGrid.new T) >>= fun g => ghostFlags m >>= fun ghost =>
    loopM (createCell m ghost) m.cells [] >>= fun ps =>
    (g.setPointIDs (m.verts.map Prod.fst)).pushPoints >>= fun g => .ok (g.pnts, ps)

end Verif.Catalyst
