import Std.Data.String.ToInt

/-! # Writing a grid to files

ristra/io/catalyst/vtk/unstructuredGrid.h:98-100, 111-154, 432-494, 563-619: `UnstructuredGrid::write`,
`writeParts`, `setOutputSerial` and the function `writeUnstructuredGrid`.

The two writers are classes of VTK, which is not part of the repository.  They are modelled by what their
documentation says:

* `vtkXMLUnstructuredGridWriter` writes the grid to the file named;
* `vtkXMLPUnstructuredGridWriter` writes for each piece from the start piece to the end piece a file whose
  name is that given without its extension, followed by `_`, the number of the piece and `.vtu`; if the start
  piece is 0 it then writes the summary, a list of the files of all pieces, to the file named.  A new writer
  has one piece, and starts and ends with piece 0.

Simplifications: all files can be written; names are not split into directory and file (the names in the
summary are relative to its directory); names contain no zero character; the grid is whatever `uGrid` holds at
the call; a process that writes several pieces writes the grid it holds to each of them.
`vtkMPIController` only decides which process is which, and each process is given its pieces by the caller. -/

namespace Verif.Catalyst

/-- name of a file -/
abbrev FName := List Char

/-- content of a file: a grid, or the list of the files with its pieces -/
inductive VtkFile (G : Type) where
  | grid (g : G)
  | summary (pieces : List FName)
deriving DecidableEq

/-- the files, by name -/
abbrev Disk (G : Type) := FName → Option (VtkFile G)

/-- one file written -/
abbrev FileWrite (G : Type) := FName × VtkFile G

/-- a file is written -/
def Disk.put {G : Type} (d : Disk G) (w : FileWrite G) : Disk G := fun n => if n = w.1 then some w.2 else d n

/-- several files are written one after the other -/
def Disk.puts {G : Type} (d : Disk G) (ws : List (FileWrite G)) : Disk G := ws.foldl Disk.put d

/-- the pieces a `vtkXMLPUnstructuredGridWriter` is told of -/
structure Pieces where
  number : Int
  start : Int
  stop : Int

/-- a new `vtkXMLPUnstructuredGridWriter` -/
def Pieces.new : Pieces := ⟨1, 0, 0⟩

/-- name without its extension -/
def stem (n : FName) : FName := ((n.reverse.dropWhile (· ≠ '.')).drop 1).reverse

/-- the file of piece `i` -/
def pieceName (n : FName) (i : Int) : FName := stem n ++ '_' :: (Int.repr i).toList ++ ".vtu".toList

/-- the numbers `lo`, ..., `hi` -/
def fromTo (lo hi : Int) : List Int := (List.range (hi + 1 - lo).toNat).map fun (k : Nat) => lo + k

/-- `vtkXMLPUnstructuredGridWriter::Write` -/
def Pieces.writes {G : Type} (p : Pieces) (n : FName) (g : G) : List (FileWrite G) :=
  (fromTo p.start p.stop).map (fun i => (pieceName n i, .grid g)) ++
  if p.start = 0 then [(n, .summary ((fromTo 0 (p.number - 1)).map (pieceName n)))] else []

/-- the part of `UnstructuredGrid` that is about writing, unstructuredGrid.h:38-47 -/
structure GridOut where
  parallelOn : Int
  pieces : Pieces

/-- the constructors, unstructuredGrid.h:111-154 -/
def GridOut.new : GridOut := ⟨1, Pieces.new⟩

/-- `setOutputSerial`, unstructuredGrid.h:98 -/
def GridOut.setOutputSerial (o : GridOut) : GridOut := { o with parallelOn := 0 }

/-- `write`, unstructuredGrid.h:445-494; `parallel` is 0 unless given, unstructuredGrid.h:100 -/
def GridOut.write {G : Type} (o : GridOut) (g : G) (fileName : FName) (parallel : Int := 0) : List (FileWrite G) :=
  if parallel = 1 then o.pieces.writes (fileName ++ ".pvtu".toList) g
  else [(fileName ++ ".vtu".toList, .grid g)]

/-- `writeParts`, unstructuredGrid.h:432-442: the object afterwards and the files written -/
def GridOut.writeParts {G : Type} (o : GridOut) (g : G) (numPieces startPiece endPiece : Int) (fileName : FName) :
    GridOut × List (FileWrite G) :=
  let o' := if o.parallelOn ≠ 0 then { o with pieces := ⟨numPieces, startPiece, endPiece⟩ } else o
  (o', o'.write g fileName o'.parallelOn)

/-- `writeUnstructuredGrid`, unstructuredGrid.h:563-619; what is printed is not modelled -/
def writeUnstructuredGrid {G : Type} (fileName : FName) (g : G) (numPieces startPiece endPiece : Int) :
    List (FileWrite G) :=
  if numPieces > 1 then
    (Pieces.mk numPieces startPiece endPiece).writes (fileName ++ ".pvtu".toList) g
  else [(fileName ++ ".vtu".toList, .grid g)]

end Verif.Catalyst
