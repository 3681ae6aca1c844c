import Verif.Common.Outcome
import Mathlib.Algebra.Field.Defs
import Mathlib.Algebra.Field.Rat
import Mathlib.Data.Fin.VecNotation

/-!
# Model of `ristra/elements/elements.cc`: the fixed-order elements and the Jacobian functions

`std::vector<real_t>` is a function from indices to numbers; the vectors are taken to have the
sizes the functions index (a smaller vector is undefined behaviour), except for the Jacobian
matrix, whose size is modelled because the determinant reads beyond the dimension in use.  Numbers
are the elements of a field: rounding is not modelled.  Vectors that a function fills, and local
arrays, begin with arbitrary contents (`out`, `tmp`).

Point coordinates: 0 is xi, 1 eta, 2 mu, 3 tau.

Not modelled: the `check_unity` sums, which nothing reads.
-/

namespace Verif.Elements

variable {R : Type}

/-- `for (v : l) out[v] = f(v);` where `l` are the values the loop variable takes -/
def fill (l : List Nat) (f : Nat → R) (out : Nat → R) : Nat → R :=
  l.foldl (fun o v => Function.update o v (f v)) out

/-- `for (v = a; v < b; v += s)` -/
def steps (a b s : Nat) : List Nat := List.range' a ((b - a + s - 1) / s) s

variable [Field R]

/-- a row of the tables `ref_vert` -/
def row (l : List (List R)) (v d : Nat) : R := (l.getD v []).getD d 0

/-- the loops at the end of `physical_position` in all elements but Hex20, e.g. elements.cc:903-917: zero
`x_point`, then for each vertex and each dimension add -/
def accumulate (nv nd : Nat) (vertices : Nat → Nat → R) (shape x : Nat → R) : Nat → R :=
  (steps 0 nv 1).foldl (fun x v =>
    (steps 0 nd 1).foldl (fun x d => Function.update x d (x d + vertices v d * shape v)) x)
    (fill (steps 0 nd 1) (fun _ => 0) x)

/-- the same in Hex20, elements.cc:1602-1612: dimensions outside, vertices inside -/
def accumulateByDim (nv nd : Nat) (vertices : Nat → Nat → R) (shape x : Nat → R) : Nat → R :=
  (steps 0 nd 1).foldl (fun x d =>
    (steps 0 nv 1).foldl (fun x v => Function.update x d (x d + vertices v d * shape v)) x)
    (fill (steps 0 nd 1) (fun _ => 0) x)

/-- `Quad_4_2D::ref_vert`, elements.cc:878-884 -/
def quad4Ref : Nat → Nat → R := row [
  [-1, -1], [1, -1], [1, 1], [-1, 1]]

/-- the shape functions inside `Quad_4_2D::physical_position`, elements.cc:896-901 -/
def quad4Shape (out xi : Nat → R) : Nat → R :=
  fill (steps 0 4 1) (fun v => 1/4 * (1 + xi 0 * quad4Ref v 0) * (1 + xi 1 * quad4Ref v 1)) out

/-- `Quad_4_2D::physical_position`, elements.cc:887-921; `tmp` is the local array before it is filled -/
def quad4Position (tmp x xi : Nat → R) (vertices : Nat → Nat → R) : Nat → R :=
  accumulate 4 2 vertices (quad4Shape tmp xi) x

/-- `Quad_4_2D::basis`, elements.cc:924-936 -/
def quad4Basis (out xi : Nat → R) : Nat → R :=
  fill (steps 0 4 1) (fun v => 1/4 * (1 + xi 0 * quad4Ref v 0) * (1 + xi 1 * quad4Ref v 1)) out

/-- `Quad_4_2D::partial_xi_shape_fcn`, elements.cc:940-950 -/
def quad4Xi (out xi : Nat → R) : Nat → R :=
  fill (steps 0 4 1) (fun v => 1/4 * quad4Ref v 0 * (1 + xi 1 * quad4Ref v 1)) out

/-- `Quad_4_2D::partial_eta_shape_fcn`, elements.cc:954-963 -/
def quad4Eta (out xi : Nat → R) : Nat → R :=
  fill (steps 0 4 1) (fun v => 1/4 * (1 + xi 0 * quad4Ref v 0) * quad4Ref v 1) out

/-- `Quad_8_2D::ref_vert`, elements.cc:990-1002 -/
def quad8Ref : Nat → Nat → R := row [
  [-1, -1], [1, -1], [1, 1], [-1, 1],
  [0, -1], [1, 0], [0, 1], [-1, 0]]

/-- the shape functions inside `Quad_8_2D::physical_position`, elements.cc:1014-1035 -/
def quad8Shape (out xi : Nat → R) : Nat → R :=
  fill (steps 5 8 2) (fun v => 1/2 * (1 + xi 0 * quad8Ref v 0) * (1 - xi 1 * xi 1))
    (fill (steps 4 7 2) (fun v => 1/2 * (1 - xi 0 * xi 0) * (1 + xi 1 * quad8Ref v 1))
    (fill (steps 0 4 1) (fun v => 1/4 * (1 + xi 0 * quad8Ref v 0) * (1 + xi 1 * quad8Ref v 1) * (xi 0 * quad8Ref v 0 + xi 1 * quad8Ref v 1 - 1)) out))

/-- `Quad_8_2D::physical_position`, elements.cc:1006-1054; `tmp` is the local array before it is filled -/
def quad8Position (tmp x xi : Nat → R) (vertices : Nat → Nat → R) : Nat → R :=
  accumulate 8 2 vertices (quad8Shape tmp xi) x

/-- `Quad_8_2D::basis`, elements.cc:1057-1085 -/
def quad8Basis (out xi : Nat → R) : Nat → R :=
  fill (steps 5 8 2) (fun v => 1/2 * (1 + xi 0 * quad8Ref v 0) * (1 - xi 1 * xi 1))
    (fill (steps 4 7 2) (fun v => 1/2 * (1 - xi 0 * xi 0) * (1 + xi 1 * quad8Ref v 1))
    (fill (steps 0 4 1) (fun v => 1/4 * (1 + xi 0 * quad8Ref v 0) * (1 + xi 1 * quad8Ref v 1) * (xi 0 * quad8Ref v 0 + xi 1 * quad8Ref v 1 - 1)) out))

/-- `Quad_8_2D::partial_xi_shape_fcn`, elements.cc:1088-1115 -/
def quad8Xi (out xi : Nat → R) : Nat → R :=
  fill (steps 5 8 2) (fun v => 1/2 * quad8Ref v 0 * (1 - xi 1 * xi 1))
    (fill (steps 4 7 2) (fun v => -1 * xi 0 * (1 + quad8Ref v 1 * xi 1))
    (fill (steps 0 4 1) (fun v => 1/4 * quad8Ref v 0 * (1 + quad8Ref v 1 * xi 1) * (2 * quad8Ref v 0 * xi 0 + quad8Ref v 1 * xi 1)) out))

/-- `Quad_8_2D::partial_eta_shape_fcn`, elements.cc:1118-1144 -/
def quad8Eta (out xi : Nat → R) : Nat → R :=
  fill (steps 5 8 2) (fun v => -1 * (1 + quad8Ref v 0 * xi 0) * xi 1)
    (fill (steps 4 7 2) (fun v => 1/2 * (1 - xi 0 * xi 0) * quad8Ref v 1)
    (fill (steps 0 4 1) (fun v => 1/4 * (1 + quad8Ref v 0 * xi 0) * quad8Ref v 1 * (quad8Ref v 0 * xi 0 + 2 * quad8Ref v 1 * xi 1)) out))

/-- `Quad_12_2D::ref_vert`, elements.cc:1171-1188 -/
def quad12Ref : Nat → Nat → R := row [
  [-1, -1], [1, -1], [1, 1], [-1, 1],
  [-1/3, -1], [1/3, -1], [1/3, 1], [-1/3, 1],
  [-1, -1/3], [1, -1/3], [1, 1/3], [-1, 1/3]]

/-- the shape functions inside `Quad_12_2D::physical_position`, elements.cc:1199-1225 -/
def quad12Shape (out xi : Nat → R) : Nat → R :=
  fill (steps 8 12 1) (fun v => 9/32 * (1 + xi 0 * quad12Ref v 0) * (1 - xi 1 * xi 1) * (1 + 9 * xi 1 * quad12Ref v 1))
    (fill (steps 4 8 1) (fun v => 9/32 * (1 - xi 0 * xi 0) * (1 + xi 1 * quad12Ref v 1) * (1 + 9 * xi 0 * quad12Ref v 0))
    (fill (steps 0 4 1) (fun v => 1/32 * (1 + quad12Ref v 0 * xi 0) * (1 + quad12Ref v 1 * xi 1) * (9 * (xi 0 * xi 0 + xi 1 * xi 1) - 10)) out))

/-- `Quad_12_2D::physical_position`, elements.cc:1191-1244; `tmp` is the local array before it is filled -/
def quad12Position (tmp x xi : Nat → R) (vertices : Nat → Nat → R) : Nat → R :=
  accumulate 12 2 vertices (quad12Shape tmp xi) x

/-- `Quad_12_2D::basis`, elements.cc:1247-1275: the formulas of the 8-node element, entries 8-11 untouched -/
def quad12Basis (out xi : Nat → R) : Nat → R :=
  fill (steps 5 8 2) (fun v => 1/2 * (1 + xi 0 * quad12Ref v 0) * (1 - xi 1 * xi 1))
    (fill (steps 4 7 2) (fun v => 1/2 * (1 - xi 0 * xi 0) * (1 + xi 1 * quad12Ref v 1))
    (fill (steps 0 4 1) (fun v => 1/4 * (1 + xi 0 * quad12Ref v 0) * (1 + xi 1 * quad12Ref v 1) * (xi 0 * quad12Ref v 0 + xi 1 * quad12Ref v 1 - 1)) out))

/-- `Quad_12_2D::partial_xi_shape_fcn`, elements.cc:1278-1313 -/
def quad12Xi (out xi : Nat → R) : Nat → R :=
  fill (steps 8 12 1) (fun v => 9/32 * quad12Ref v 0 * (1 - xi 1 * xi 1) * (1 + 9 * xi 1 * quad12Ref v 1))
    (fill (steps 4 8 1) (fun v => 9/32 * (1 + xi 1 * quad12Ref v 1) * (9 * quad12Ref v 0 * (1 - 3 * xi 0 * xi 0) - 2 * xi 0))
    (fill (steps 0 4 1) (fun v => 1/32 * (1 + xi 1 * quad12Ref v 1) * (9 * quad12Ref v 0 * (xi 0 * xi 0 + xi 1 * xi 1) + 18 * xi 0 * (1 + xi 0 * quad12Ref v 0) - 10 * quad12Ref v 0)) out))

/-- `Quad_12_2D::partial_eta_shape_fcn`, elements.cc:1316-1349 -/
def quad12Eta (out xi : Nat → R) : Nat → R :=
  fill (steps 8 12 1) (fun v => 9/32 * (1 + xi 0 * quad12Ref v 0) * (9 * quad12Ref v 1 * (1 - 3 * xi 1 * xi 1) - 2 * xi 1))
    (fill (steps 4 8 1) (fun v => 9/32 * (1 - xi 0 * xi 0) * (1 + 9 * xi 0 * quad12Ref v 0) * quad12Ref v 1)
    (fill (steps 0 4 1) (fun v => 1/32 * (1 + xi 0 * quad12Ref v 0) * (9 * quad12Ref v 1 * (xi 0 * xi 0 + xi 1 * xi 1) + 18 * xi 1 * (1 + xi 1 * quad12Ref v 1) - 10 * quad12Ref v 1)) out))

/-- `Hex8::ref_vert`, elements.cc:1392-1404 -/
def hex8Ref : Nat → Nat → R := row [
  [-1, -1, -1], [1, -1, -1], [1, -1, 1], [-1, -1, 1],
  [-1, 1, -1], [1, 1, -1], [1, 1, 1], [-1, 1, 1]]

/-- the shape functions inside `Hex8::physical_position`, elements.cc:1415-1421 -/
def hex8Shape (out xi : Nat → R) : Nat → R :=
  fill (steps 0 8 1) (fun v => 1/8 * (1 + xi 0 * hex8Ref v 0) * (1 + xi 1 * hex8Ref v 1) * (1 + xi 2 * hex8Ref v 2)) out

/-- `Hex8::physical_position`, elements.cc:1407-1437; `tmp` is the local array before it is filled -/
def hex8Position (tmp x xi : Nat → R) (vertices : Nat → Nat → R) : Nat → R :=
  accumulate 8 3 vertices (hex8Shape tmp xi) x

/-- `Hex8::basis`, elements.cc:1440-1452 -/
def hex8Basis (out xi : Nat → R) : Nat → R :=
  fill (steps 0 8 1) (fun v => 1/8 * (1 + xi 0 * hex8Ref v 0) * (1 + xi 1 * hex8Ref v 1) * (1 + xi 2 * hex8Ref v 2)) out

/-- `Hex8::partial_xi_shape_fcn`, elements.cc:1456-1468 -/
def hex8Xi (out xi : Nat → R) : Nat → R :=
  fill (steps 0 8 1) (fun v => 1/8 * hex8Ref v 0 * (1 + xi 1 * hex8Ref v 1) * (1 + xi 2 * hex8Ref v 2)) out

/-- `Hex8::partial_eta_shape_fcn`, elements.cc:1471-1481 -/
def hex8Eta (out xi : Nat → R) : Nat → R :=
  fill (steps 0 8 1) (fun v => 1/8 * (1 + xi 0 * hex8Ref v 0) * hex8Ref v 1 * (1 + xi 2 * hex8Ref v 2)) out

/-- `Hex8::partial_mu_shape_fcn`, elements.cc:1484-1494 -/
def hex8Mu (out xi : Nat → R) : Nat → R :=
  fill (steps 0 8 1) (fun v => 1/8 * (1 + xi 0 * hex8Ref v 0) * (1 + xi 1 * hex8Ref v 1) * hex8Ref v 2) out

/-- `Hex20::ref_vert`, elements.cc:1525-1552 -/
def hex20Ref : Nat → Nat → R := row [
  [-1, -1, -1], [1, -1, -1], [1, -1, 1], [-1, -1, 1],
  [-1, 1, -1], [1, 1, -1], [1, 1, 1], [-1, 1, 1],
  [0, -1, -1], [1, -1, 0], [0, -1, 1], [-1, -1, 0],
  [0, 1, -1], [1, 1, 0], [0, 1, 1], [-1, 1, 0],
  [-1, 0, -1], [1, 0, -1], [1, 0, 1], [-1, 0, 1]]

/-- the shape functions inside `Hex20::physical_position`, elements.cc:1566-1598 -/
def hex20Shape (out xi : Nat → R) : Nat → R :=
  fill (steps 9 16 2) (fun v => 1/4 * (1 + xi 0 * hex20Ref v 0) * (1 + xi 1 * hex20Ref v 1) * (1 - xi 2 * xi 2))
    (fill (steps 16 20 1) (fun v => 1/4 * (1 + xi 0 * hex20Ref v 0) * (1 - xi 1 * xi 1) * (1 + xi 2 * hex20Ref v 2))
    (fill (steps 8 15 2) (fun v => 1/4 * (1 - xi 0 * xi 0) * (1 + xi 1 * hex20Ref v 1) * (1 + xi 2 * hex20Ref v 2))
    (fill (steps 0 8 1) (fun v => 1/8 * (1 + xi 0 * hex20Ref v 0) * (1 + xi 1 * hex20Ref v 1) * (1 + xi 2 * hex20Ref v 2) * (xi 0 * hex20Ref v 0 + xi 1 * hex20Ref v 1 + xi 2 * hex20Ref v 2 - 2)) out)))

/-- `Hex20::physical_position`, elements.cc:1556-1620; `tmp` is the local array before it is filled -/
def hex20Position (tmp x xi : Nat → R) (vertices : Nat → Nat → R) : Nat → R :=
  accumulateByDim 20 3 vertices (hex20Shape tmp xi) x

/-- `Hex20::basis`, elements.cc:1623-1662 -/
def hex20Basis (out xi : Nat → R) : Nat → R :=
  fill (steps 9 16 2) (fun v => 1/4 * (1 + xi 0 * hex20Ref v 0) * (1 + xi 1 * hex20Ref v 1) * (1 - xi 2 * xi 2))
    (fill (steps 16 20 1) (fun v => 1/4 * (1 + xi 0 * hex20Ref v 0) * (1 - xi 1 * xi 1) * (1 + xi 2 * hex20Ref v 2))
    (fill (steps 8 15 2) (fun v => 1/4 * (1 - xi 0 * xi 0) * (1 + xi 1 * hex20Ref v 1) * (1 + xi 2 * hex20Ref v 2))
    (fill (steps 0 8 1) (fun v => 1/8 * (1 + xi 0 * hex20Ref v 0) * (1 + xi 1 * hex20Ref v 1) * (1 + xi 2 * hex20Ref v 2) * (xi 0 * hex20Ref v 0 + xi 1 * hex20Ref v 1 + xi 2 * hex20Ref v 2 - 2)) out)))

/-- `Hex20::partial_xi_shape_fcn`, elements.cc:1666-1705 -/
def hex20Xi (out xi : Nat → R) : Nat → R :=
  fill (steps 16 20 1) (fun v => 1/4 * hex20Ref v 0 * (1 - xi 1 * xi 1) * (1 + xi 2 * hex20Ref v 2))
    (fill (steps 9 16 2) (fun v => 1/4 * hex20Ref v 0 * (1 + xi 1 * hex20Ref v 1) * (1 - xi 2 * xi 2))
    (fill (steps 8 15 2) (fun v => -1/2 * xi 0 * (1 + xi 1 * hex20Ref v 1) * (1 + xi 2 * hex20Ref v 2))
    (fill (steps 0 8 1) (fun v => 1/8 * hex20Ref v 0 * (1 + xi 1 * hex20Ref v 1) * (1 + xi 2 * hex20Ref v 2) * (2 * (xi 0 * hex20Ref v 0) + xi 1 * hex20Ref v 1 + xi 2 * hex20Ref v 2 - 1)) out)))

/-- `Hex20::partial_eta_shape_fcn`, elements.cc:1708-1746 -/
def hex20Eta (out xi : Nat → R) : Nat → R :=
  fill (steps 16 20 1) (fun v => -1/2 * (1 + xi 0 * hex20Ref v 0) * xi 1 * (1 + xi 2 * hex20Ref v 2))
    (fill (steps 9 16 2) (fun v => 1/4 * (1 + xi 0 * hex20Ref v 0) * hex20Ref v 1 * (1 - xi 2 * xi 2))
    (fill (steps 8 15 2) (fun v => 1/4 * (1 - xi 0 * xi 0) * hex20Ref v 1 * (1 + xi 2 * hex20Ref v 2))
    (fill (steps 0 8 1) (fun v => 1/8 * (1 + xi 0 * hex20Ref v 0) * hex20Ref v 1 * (1 + xi 2 * hex20Ref v 2) * (xi 0 * hex20Ref v 0 + 2 * xi 1 * hex20Ref v 1 + xi 2 * hex20Ref v 2 - 1)) out)))

/-- `Hex20::partial_mu_shape_fcn`, elements.cc:1749-1787 -/
def hex20Mu (out xi : Nat → R) : Nat → R :=
  fill (steps 16 20 1) (fun v => 1/4 * (1 + xi 0 * hex20Ref v 0) * (1 - xi 1 * xi 1) * hex20Ref v 2)
    (fill (steps 9 16 2) (fun v => -1/2 * (1 + xi 0 * hex20Ref v 0) * (1 + xi 1 * hex20Ref v 1) * xi 2)
    (fill (steps 8 15 2) (fun v => 1/4 * (1 - xi 0 * xi 0) * (1 + xi 1 * hex20Ref v 1) * hex20Ref v 2)
    (fill (steps 0 8 1) (fun v => 1/8 * (1 + xi 0 * hex20Ref v 0) * (1 + xi 1 * hex20Ref v 1) * hex20Ref v 2 * (xi 0 * hex20Ref v 0 + xi 1 * hex20Ref v 1 + 2 * xi 2 * hex20Ref v 2 - 1)) out)))

/-- `Hex32::ref_vert`, elements.cc:1830-1867 -/
def hex32Ref : Nat → Nat → R := row [
  [-1, -1, -1], [1, -1, -1], [1, -1, 1], [-1, -1, 1],
  [-1, 1, -1], [1, 1, -1], [1, 1, 1], [-1, 1, 1],
  [-1, -1, -1/3], [1, -1, -1/3], [1, -1, 1/3], [-1, -1, 1/3],
  [-1, 1, -1/3], [1, 1, -1/3], [1, 1, 1/3], [-1, 1, 1/3],
  [-1/3, -1, -1], [1/3, -1, -1], [1/3, -1, 1], [-1/3, -1, 1],
  [-1/3, 1, -1], [1/3, 1, -1], [1/3, 1, 1], [-1/3, 1, 1],
  [-1, -1/3, -1], [1, -1/3, -1], [1, -1/3, 1], [-1, -1/3, 1],
  [-1, 1/3, -1], [1, 1/3, -1], [1, 1/3, 1], [-1, 1/3, 1]]

/-- the shape functions inside `Hex32::physical_position`, elements.cc:1880-1919 -/
def hex32Shape (out xi : Nat → R) : Nat → R :=
  fill (steps 24 32 1) (fun v => 9/64 * (1 + xi 0 * hex32Ref v 0) * (1 - xi 1 * xi 1) * (1 + 9 * xi 1 * hex32Ref v 1) * (1 + xi 2 * hex32Ref v 2))
    (fill (steps 16 24 1) (fun v => 9/64 * (1 - xi 0 * xi 0) * (1 + 9 * xi 0 * hex32Ref v 0) * (1 + xi 1 * hex32Ref v 1) * (1 + xi 2 * hex32Ref v 2))
    (fill (steps 8 16 1) (fun v => 9/64 * (1 + xi 0 * hex32Ref v 0) * (1 + xi 1 * hex32Ref v 1) * (1 + 9 * xi 2 * hex32Ref v 2) * (1 - xi 2 * xi 2))
    (fill (steps 0 8 1) (fun v => 1/64 * (1 + xi 0 * hex32Ref v 0) * (1 + xi 1 * hex32Ref v 1) * (1 + xi 2 * hex32Ref v 2) * (9 * xi 0 * xi 0 + 9 * xi 1 * xi 1 + 9 * xi 2 * xi 2 - 19)) out)))

/-- `Hex32::physical_position`, elements.cc:1871-1941; `tmp` is the local array before it is filled -/
def hex32Position (tmp x xi : Nat → R) (vertices : Nat → Nat → R) : Nat → R :=
  accumulate 32 3 vertices (hex32Shape tmp xi) x

/-- `Hex32::basis`, elements.cc:1944-1989 -/
def hex32Basis (out xi : Nat → R) : Nat → R :=
  fill (steps 24 32 1) (fun v => 9/64 * (1 + xi 0 * hex32Ref v 0) * (1 - xi 1 * xi 1) * (1 + 9 * xi 1 * hex32Ref v 1) * (1 + xi 2 * hex32Ref v 2))
    (fill (steps 16 24 1) (fun v => 9/64 * (1 - xi 0 * xi 0) * (1 + 9 * xi 0 * hex32Ref v 0) * (1 + xi 1 * hex32Ref v 1) * (1 + xi 2 * hex32Ref v 2))
    (fill (steps 8 16 1) (fun v => 9/64 * (1 + xi 0 * hex32Ref v 0) * (1 + xi 1 * hex32Ref v 1) * (1 + 9 * xi 2 * hex32Ref v 2) * (1 - xi 2 * xi 2))
    (fill (steps 0 8 1) (fun v => 1/64 * (1 + xi 0 * hex32Ref v 0) * (1 + xi 1 * hex32Ref v 1) * (1 + xi 2 * hex32Ref v 2) * (9 * xi 0 * xi 0 + 9 * xi 1 * xi 1 + 9 * xi 2 * xi 2 - 19)) out)))

/-- `Hex32::partial_xi_shape_fcn`, elements.cc:1993-2034 -/
def hex32Xi (out xi : Nat → R) : Nat → R :=
  fill (steps 24 32 1) (fun v => 9/64 * hex32Ref v 0 * (1 - xi 1 * xi 1) * (1 + 9 * xi 1 * hex32Ref v 1) * (1 + xi 2 * hex32Ref v 2))
    (fill (steps 16 24 1) (fun v => 9/64 * (1 + xi 1 * hex32Ref v 1) * (1 + xi 2 * hex32Ref v 2) * (9 * hex32Ref v 0 * (1 - 3 * xi 0 * xi 0) - 2 * xi 0))
    (fill (steps 8 16 1) (fun v => 9/64 * hex32Ref v 0 * (1 + xi 1 * hex32Ref v 1) * (1 + 9 * xi 2 * hex32Ref v 2) * (1 - xi 2 * xi 2))
    (fill (steps 0 8 1) (fun v => 1/64 * (1 + xi 1 * hex32Ref v 1) * (1 + xi 2 * hex32Ref v 2) * (9 * hex32Ref v 0 * (xi 0 * xi 0 + xi 1 * xi 1 + xi 2 * xi 2) + 18 * xi 0 * (1 + xi 0 * hex32Ref v 0) - 19 * hex32Ref v 0)) out)))

/-- `Hex32::partial_eta_shape_fcn`, elements.cc:2037-2080 -/
def hex32Eta (out xi : Nat → R) : Nat → R :=
  fill (steps 24 32 1) (fun v => 9/64 * (1 + xi 0 * hex32Ref v 0) * (1 + xi 2 * hex32Ref v 2) * (9 * hex32Ref v 1 * (1 - 3 * xi 1 * xi 1) - 2 * xi 1))
    (fill (steps 16 24 1) (fun v => 9/64 * (1 - xi 0 * xi 0) * (1 + 9 * xi 0 * hex32Ref v 0) * hex32Ref v 1 * (1 + xi 2 * hex32Ref v 2))
    (fill (steps 8 16 1) (fun v => 9/64 * (1 + xi 0 * hex32Ref v 0) * hex32Ref v 1 * (1 + 9 * xi 2 * hex32Ref v 2) * (1 - xi 2 * xi 2))
    (fill (steps 0 8 1) (fun v => 1/64 * (1 + xi 0 * hex32Ref v 0) * (1 + xi 2 * hex32Ref v 2) * (9 * hex32Ref v 1 * (xi 0 * xi 0 + xi 1 * xi 1 + xi 2 * xi 2) + 18 * xi 1 * (1 + xi 1 * hex32Ref v 1) - 19 * hex32Ref v 1)) out)))

/-- `Hex32::partial_mu_shape_fcn`, elements.cc:2083-2127 -/
def hex32Mu (out xi : Nat → R) : Nat → R :=
  fill (steps 24 32 1) (fun v => 9/64 * (1 + xi 0 * hex32Ref v 0) * (1 - xi 1 * xi 1) * (1 + 9 * xi 1 * hex32Ref v 1) * hex32Ref v 2)
    (fill (steps 16 24 1) (fun v => 9/64 * (1 - xi 0 * xi 0) * (1 + 9 * xi 0 * hex32Ref v 0) * (1 + xi 1 * hex32Ref v 1) * hex32Ref v 2)
    (fill (steps 8 16 1) (fun v => 9/64 * (1 + xi 0 * hex32Ref v 0) * (1 + xi 1 * hex32Ref v 1) * (9 * hex32Ref v 2 * (1 - 3 * xi 2 * xi 2) - 2 * xi 2))
    (fill (steps 0 8 1) (fun v => 1/64 * (1 + xi 0 * hex32Ref v 0) * (1 + xi 1 * hex32Ref v 1) * (9 * hex32Ref v 2 * (xi 0 * xi 0 + xi 1 * xi 1 + xi 2 * xi 2) + 18 * xi 2 * (1 + xi 2 * hex32Ref v 2) - 19 * hex32Ref v 2)) out)))

/-! `Tess16` (elements.h:743-776) has a data member `ref_vert` that nothing ever sets; its member
functions read that member, not the table of the same name at namespace scope (2754-2776).  So the
table the functions use is a parameter `member`, and the other table is `tess16Ref`. -/

/-- the table at namespace scope, elements.cc:2754-2776 -/
def tess16Ref : Nat → Nat → R := row [
  [-1, -1, -1, -1], [1, -1, -1, -1], [1, -1, 1, -1], [-1, -1, 1, -1],
  [-1, 1, -1, -1], [1, 1, -1, -1], [1, 1, 1, -1], [-1, 1, 1, -1],
  [-1, -1, -1, 1], [1, -1, -1, 1], [1, -1, 1, 1], [-1, -1, 1, 1],
  [-1, 1, -1, 1], [1, 1, -1, 1], [1, 1, 1, 1], [-1, 1, 1, 1]]

/-- the shape functions inside `Tess16::physical_position`, elements.cc:2791-2798 -/
def tess16Shape (member : Nat → Nat → R) (out xi : Nat → R) : Nat → R :=
  fill (steps 0 16 1) (fun v => 1/16 * (1 + xi 0 * member v 0) * (1 + xi 1 * member v 1) * (1 + xi 2 * member v 2) * (1 + xi 3 * member v 3)) out

/-- `Tess16::physical_position`, elements.cc:2781-2816; `tmp` is the local array before it is filled -/
def tess16Position (member : Nat → Nat → R) (tmp x xi : Nat → R) (vertices : Nat → Nat → R) : Nat → R :=
  accumulate 16 4 vertices (tess16Shape member tmp xi) x

/-- `Tess16::partial_xi_shape_fcn`, elements.cc:2820-2832 -/
def tess16Xi (member : Nat → Nat → R) (out xi : Nat → R) : Nat → R :=
  fill (steps 0 16 1) (fun v => 1/16 * member v 0 * (1 + xi 1 * member v 1) * (1 + xi 2 * member v 2) * (1 + xi 3 * member v 3)) out

/-- `Tess16::partial_eta_shape_fcn`, elements.cc:2835-2847 -/
def tess16Eta (member : Nat → Nat → R) (out xi : Nat → R) : Nat → R :=
  fill (steps 0 16 1) (fun v => 1/16 * (1 + xi 0 * member v 0) * member v 1 * (1 + xi 2 * member v 2) * (1 + xi 3 * member v 3)) out

/-- `Tess16::partial_mu_shape_fcn`, elements.cc:2850-2862 -/
def tess16Mu (member : Nat → Nat → R) (out xi : Nat → R) : Nat → R :=
  fill (steps 0 16 1) (fun v => 1/16 * (1 + xi 0 * member v 0) * (1 + xi 1 * member v 1) * member v 2 * (1 + xi 3 * member v 3)) out

/-- `Tess16::partial_tau_shape_fcn`, elements.cc:2865-2878 -/
def tess16Tau (member : Nat → Nat → R) (out xi : Nat → R) : Nat → R :=
  fill (steps 0 16 1) (fun v => 1/16 * (1 + xi 0 * member v 0) * (1 + xi 1 * member v 1) * (1 + xi 2 * member v 2) * member v 3) out

/-! ## virtual dispatch: the element classes with fixed order, elements.h:101-154, 218-568 -/

/-- the classes derived from `element2D` and `element3D` whose order is fixed, elements.h:218-568 -/
inductive Kind
  | quad4 | quad8 | quad12 | hex8 | hex20 | hex32
deriving DecidableEq, Repr

/-- the number of vertices of the element, elements.h:218-568 -/
def Kind.nodes : Kind → Nat
  | .quad4 => 4 | .quad8 => 8 | .quad12 => 12 | .hex8 => 8 | .hex20 => 20 | .hex32 => 32

/-- the number of dimensions of the element, elements.h:218-568 -/
def Kind.dim : Kind → Nat
  | .quad4 => 2 | .quad8 => 2 | .quad12 => 2 | .hex8 => 3 | .hex20 => 3 | .hex32 => 3

/-- the table of reference vertices of the class; elements.cc:820-2120 -/
def Kind.ref : Kind → Nat → Nat → R
  | .quad4 => quad4Ref | .quad8 => quad8Ref | .quad12 => quad12Ref
  | .hex8 => hex8Ref | .hex20 => hex20Ref | .hex32 => hex32Ref

/-- `basis`; elements.h:218-568 -/
def Kind.basis : Kind → (Nat → R) → (Nat → R) → Nat → R
  | .quad4 => quad4Basis | .quad8 => quad8Basis | .quad12 => quad12Basis
  | .hex8 => hex8Basis | .hex20 => hex20Basis | .hex32 => hex32Basis

/-- `physical_position`; elements.h:218-568 -/
def Kind.position : Kind → (Nat → R) → (Nat → R) → (Nat → R) → (Nat → Nat → R) → Nat → R
  | .quad4 => quad4Position | .quad8 => quad8Position | .quad12 => quad12Position
  | .hex8 => hex8Position | .hex20 => hex20Position | .hex32 => hex32Position

/-- `partial_xi_shape_fcn` (0), `partial_eta_shape_fcn` (1), `partial_mu_shape_fcn` (2); elements.h:218-568 -/
def Kind.partials : Kind → Nat → (Nat → R) → (Nat → R) → Nat → R
  | .quad4, 0 => quad4Xi | .quad4, _ => quad4Eta
  | .quad8, 0 => quad8Xi | .quad8, _ => quad8Eta
  | .quad12, 0 => quad12Xi | .quad12, _ => quad12Eta
  | .hex8, 0 => hex8Xi | .hex8, 1 => hex8Eta | .hex8, _ => hex8Mu
  | .hex20, 0 => hex20Xi | .hex20, 1 => hex20Eta | .hex20, _ => hex20Mu
  | .hex32, 0 => hex32Xi | .hex32, 1 => hex32Eta | .hex32, _ => hex32Mu

/-- the partials of `Tess16`: xi, eta, mu, tau -/
def tess16Partials (member : Nat → Nat → R) : Nat → (Nat → R) → (Nat → R) → Nat → R
  | 0 => tess16Xi member | 1 => tess16Eta member | 2 => tess16Mu member | _ => tess16Tau member

/-! ## the Jacobian functions -/

/-- a matrix with its allocated size -/
structure Matrix2 (R : Type) where
  rows : Nat
  cols : Nat
  get : Nat → Nat → R

/-- zeroing and accumulation, elements.cc:535-552 and 574-591: `J[j][k] = Σ vertices[v][k] * partial[v][j]` -/
def jacobianEntries (vertices partials : Nat → Nat → R) (numNodes dim : Nat) (J : Nat → Nat → R) : Nat → Nat → R :=
  let zeroed := (steps 0 dim 1).foldl (fun J j => (steps 0 dim 1).foldl (fun J k =>
    Function.update J j (Function.update (J j) k 0)) J) J
  (steps 0 dim 1).foldl (fun J j => (steps 0 dim 1).foldl (fun J k => (steps 0 numNodes 1).foldl (fun J v =>
    Function.update J j (Function.update (J j) k (J j k + vertices v k * partials v j))) J) J) zeroed

/-- `jacobian`, elements.cc:527-562; `abs (dim - 3)` and the like are integers converted to numbers.  All
nine entries up to `J[2][2]` are read whatever `dim` is -/
def jacobian (J : Matrix2 R) (vertices partials : Nat → Nat → R) (numNodes dim : Nat) : Outcome (Matrix2 R × R) :=
  if J.rows < dim ∨ J.cols < dim ∨ J.rows < 3 ∨ J.cols < 3 then .ub
  else
    let m := jacobianEntries vertices partials numNodes dim J.get
    let a3 : R := (((dim : Int) - 3).natAbs : R)
    let a2 : R := (((dim : Int) - 2).natAbs : R)
    .ok ({ J with get := m },
      m 0 0 * (m 1 1 * (m 2 2 - (m 2 2 - 1) * a3) - (m 2 1 * m 1 2) * a2)
      - m 0 1 * (m 1 0 * (m 2 2 - (m 2 2 - 1) * a3) - (m 2 0 * m 1 2) * a2)
      + m 0 2 * (m 1 0 * m 2 1 - m 2 0 * m 1 1) * a2)

/-- `jacobian4D`, elements.cc:565-617 -/
def jacobian4D (J : Matrix2 R) (vertices partials : Nat → Nat → R) (numNodes dim : Nat) : Outcome (Matrix2 R × R) :=
  if J.rows < dim ∨ J.cols < dim ∨ J.rows < 4 ∨ J.cols < 4 then .ub
  else
    let m := jacobianEntries vertices partials numNodes dim J.get
    .ok ({ J with get := m },
      m 0 3 * m 1 2 * m 2 1 * m 3 0
      - m 0 2 * m 1 3 * m 2 1 * m 3 0
      - m 0 3 * m 1 1 * m 2 2 * m 3 0
      + m 0 1 * m 1 3 * m 2 2 * m 3 0
      + m 0 2 * m 1 1 * m 2 3 * m 3 0
      - m 0 1 * m 1 2 * m 2 3 * m 3 0
      - m 0 3 * m 1 2 * m 2 0 * m 3 1
      + m 0 2 * m 1 3 * m 2 0 * m 3 1
      + m 0 3 * m 1 0 * m 2 2 * m 3 1
      - m 0 0 * m 1 3 * m 2 2 * m 3 1
      - m 0 2 * m 1 0 * m 2 3 * m 3 1
      + m 0 0 * m 1 2 * m 2 3 * m 3 1
      + m 0 3 * m 1 1 * m 2 0 * m 3 2
      - m 0 1 * m 1 3 * m 2 0 * m 3 2
      - m 0 3 * m 1 0 * m 2 1 * m 3 2
      + m 0 0 * m 1 3 * m 2 1 * m 3 2
      + m 0 1 * m 1 0 * m 2 3 * m 3 2
      - m 0 0 * m 1 1 * m 2 3 * m 3 2
      - m 0 2 * m 1 1 * m 2 0 * m 3 3
      + m 0 1 * m 1 2 * m 2 0 * m 3 3
      + m 0 2 * m 1 0 * m 2 1 * m 3 3
      - m 0 0 * m 1 2 * m 2 1 * m 3 3
      - m 0 1 * m 1 0 * m 2 2 * m 3 3
      + m 0 0 * m 1 1 * m 2 2 * m 3 3)

/-- `jacobian_inverse_2d`, elements.cc:620-631 (division by zero gives no number) -/
def jacobianInverse2 (j : Nat → Nat → R) [DecidableEq R] : Outcome (Nat → Nat → R) :=
  let det := j 0 0 * j 1 1 - j 0 1 * j 1 0
  if det = 0 then .throws "NaN"
  else .ok (row [[j 1 1 / det, -j 0 1 / det], [-j 1 0 / det, j 0 0 / det]])

/-- `jacobian_inverse_3d`, elements.cc:634-674 -/
def jacobianInverse3 (j : Nat → Nat → R) [DecidableEq R] : Outcome (Nat → Nat → R) :=
  let a11 := j 1 1 * j 2 2 - j 1 2 * j 2 1
  let a22 := j 2 2 * j 0 0 - j 2 0 * j 0 2
  let a33 := j 0 0 * j 1 1 - j 0 1 * j 1 0
  let a12 := j 1 2 * j 2 0 - j 1 0 * j 2 2
  let a23 := j 2 0 * j 0 1 - j 2 1 * j 0 0
  let a31 := j 0 1 * j 1 2 - j 0 2 * j 1 1
  let a21 := j 2 1 * j 0 2 - j 0 1 * j 2 2
  let a32 := j 0 2 * j 1 0 - j 1 2 * j 0 0
  let a13 := j 1 0 * j 1 1 - j 2 0 * j 1 1
  let det := j 0 0 * a11 + j 0 1 * a21 + j 0 2 * a31
  if det = 0 then .throws "NaN"
  else .ok (row [[a11 / det, a12 / det, a13 / det], [a21 / det, a22 / det, a23 / det],
    [a31 / det, a32 / det, a33 / det]])

/-- the sixteen sums `inv[0..15]`, elements.cc:702-812; `m[4*i+j]` is `jacobian[i][j]`, 688-699 -/
def inverse4Sums (j : Nat → Nat → R) (k : Nat) : R :=
  let m (i : Nat) : R := j (i / 4) (i % 4)
  match k with
  | 0 => m 5 * m 10 * m 15 - m 5 * m 11 * m 14 - m 9 * m 6 * m 15 + m 9 * m 7 * m 14 + m 13 * m 6 * m 11 - m 13 * m 7 * m 10
  | 1 => -m 1 * m 10 * m 15 + m 1 * m 11 * m 14 + m 9 * m 2 * m 15 - m 9 * m 3 * m 14 - m 13 * m 2 * m 11 + m 13 * m 3 * m 10
  | 2 => m 1 * m 6 * m 15 - m 1 * m 7 * m 14 - m 5 * m 2 * m 15 + m 5 * m 3 * m 14 + m 13 * m 2 * m 7 - m 13 * m 3 * m 6
  | 3 => -m 1 * m 6 * m 11 + m 1 * m 7 * m 10 + m 5 * m 2 * m 11 - m 5 * m 3 * m 10 - m 9 * m 2 * m 7 + m 9 * m 3 * m 6
  | 4 => -m 4 * m 10 * m 15 + m 4 * m 11 * m 14 + m 8 * m 6 * m 15 - m 8 * m 7 * m 14 - m 12 * m 6 * m 11 + m 12 * m 7 * m 10
  | 5 => m 0 * m 10 * m 15 - m 0 * m 11 * m 14 - m 8 * m 2 * m 15 + m 8 * m 3 * m 14 + m 12 * m 2 * m 11 - m 12 * m 3 * m 10
  | 6 => -m 0 * m 6 * m 15 + m 0 * m 7 * m 14 + m 4 * m 2 * m 15 - m 4 * m 3 * m 14 - m 12 * m 2 * m 7 + m 12 * m 3 * m 6
  | 7 => m 0 * m 6 * m 11 - m 0 * m 7 * m 10 - m 4 * m 2 * m 11 + m 4 * m 3 * m 10 + m 8 * m 2 * m 7 - m 8 * m 3 * m 6
  | 8 => m 4 * m 9 * m 15 - m 4 * m 11 * m 13 - m 8 * m 5 * m 15 + m 8 * m 7 * m 13 + m 12 * m 5 * m 11 - m 12 * m 7 * m 9
  | 9 => -m 0 * m 9 * m 15 + m 0 * m 11 * m 13 + m 8 * m 1 * m 15 - m 8 * m 3 * m 13 - m 12 * m 1 * m 11 + m 12 * m 3 * m 9
  | 10 => m 0 * m 5 * m 15 - m 0 * m 7 * m 13 - m 4 * m 1 * m 15 + m 4 * m 3 * m 13 + m 12 * m 1 * m 7 - m 12 * m 3 * m 6
  | 11 => -m 0 * m 5 * m 11 + m 0 * m 7 * m 9 + m 4 * m 1 * m 11 - m 4 * m 3 * m 9 - m 8 * m 1 * m 7 + m 8 * m 3 * m 5
  | 12 => -m 4 * m 9 * m 14 + m 4 * m 10 * m 13 + m 8 * m 5 * m 14 - m 8 * m 6 * m 13 - m 12 * m 5 * m 10 + m 12 * m 6 * m 9
  | 13 => m 0 * m 9 * m 14 - m 0 * m 10 * m 13 - m 8 * m 1 * m 14 + m 8 * m 2 * m 13 + m 12 * m 1 * m 10 - m 12 * m 2 * m 9
  | 14 => -m 0 * m 5 * m 14 + m 0 * m 6 * m 13 + m 4 * m 1 * m 14 - m 4 * m 2 * m 13 - m 12 * m 1 * m 6 + m 12 * m 2 * m 5
  | _ => m 0 * m 5 * m 10 - m 0 * m 6 * m 9 - m 4 * m 1 * m 10 + m 4 * m 2 * m 9 + m 8 * m 1 * m 6 - m 8 * m 2 * m 5

/-- `jacobian_inverse_4d`, elements.cc:677-838: the determinant is an argument -/
def jacobianInverse4 (j : Nat → Nat → R) (detJ : R) [DecidableEq R] : Outcome (Nat → Nat → R) :=
  if detJ = 0 then .throws "NaN"
  else .ok (fun a b => inverse4Sums j (4 * a + b) * (1 / detJ))

end Verif.Elements
