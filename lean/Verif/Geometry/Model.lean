import Verif.Vec.Model
import Mathlib.Algebra.Order.Ring.Abs
import Mathlib.Algebra.Order.Field.Basic

/-!
# Model of `ristra/geometry`

Points are functions `Fin 2 → K` or `Fin 3 → K`, exact arithmetic.  A list of points is the
range `[first, last)` of the iterator overloads, the container of the container overloads, or
the argument pack of the variadic overloads.  Division by a zero (signed) area or volume gives
NaN or infinities in the code and is the outcome `.throws "NaN"` here.
-/

namespace Verif.Geometry
open Verif.Vec

/-! ## Point averages -/

section Avg
variable {K : Type} [Field K]

/-- array.h `lhs += rhs` -/
def addTo (lhs rhs : Vec d K) : Vec d K := fun i => lhs i + rhs i
/-- array.h:424-430 `lhs /= s`: multiplies by the reciprocal -/
def divBy (x : Vec d K) (s : K) : Vec d K := let inv := 1 / s; fun i => x i * inv

/-- math/general.h:90-107 `average(first,last)` of points -/
def averageRangePts (pts : List (Vec d K)) : Outcome (Vec d K) := do
  Outcome.assert (decide (pts.length > 0))
  .ok (divBy (pts.foldl addTo (fun _ => 0)) (pts.length : K))

/-- math/general.h:32-47 and general_impl.h `average(t, args...)` of points -/
def averagePackPts (t : Vec d K) (args : List (Vec d K)) : Vec d K :=
  divBy (args.foldl addTo t) ((args.length + 1 : Nat) : K)

/-- point.h:64-84 `centroid(list)`: no check for an empty list -/
def centroidList (pts : List (Vec d K)) : Outcome (Vec d K) :=
  let tmp := pts.foldl addTo (fun _ => 0)
  if pts.length = 0 then .throws "NaN" else .ok (divBy tmp (pts.length : K))

/-- point.h:51-56 `midpoint(a,b)` -/
def midpoint2 (a b : Vec d K) : Vec d K := divBy (addTo a b) 2

end Avg

/-! ## Triangles -/

section Tri
variable {K : Type} [Field K]

/-- triangle.h:46-57, 107-127 `midpoint` = `centroid`, both dimensions -/
def triMid (p0 p1 p2 : Vec d K) : Vec d K := fun i => (1 / 3) * (p0 i + p1 i + p2 i)

/-- triangle.h:62-72 cross product inside `triangle<2>::area` and `normal` -/
def triCross2 {K : Type} [Sub K] [Mul K] (p0 p1 p2 : Vec 2 K) : K :=
  let u : Vec 2 K := ![p1 0 - p0 0, p1 1 - p0 1]
  let v : Vec 2 K := ![p2 0 - p0 0, p2 1 - p0 1]
  cross2 u v

/-- triangle.h:62-72 `triangle<2>::area` -/
def triArea2 [LinearOrder K] (p0 p1 p2 : Vec 2 K) : K := (1 / 2) * |triCross2 p0 p1 p2|

/-- triangle.h:77-87 `triangle<2>::normal` -/
def triNormal2 (p0 p1 p2 : Vec 2 K) : Vec 2 K := ![0, (1 / 2) * triCross2 p0 p1 p2]

/-- triangle.h:147-158 `triangle<3>::normal` -/
def triNormal3 (p0 p1 p2 : Vec 3 K) : Vec 3 K :=
  let u : Vec 3 K := ![p1 0 - p0 0, p1 1 - p0 1, p1 2 - p0 2]
  let v : Vec 3 K := ![p2 0 - p0 0, p2 1 - p0 1, p2 2 - p0 2]
  let cross := cross3 u v
  fun i => cross i * (1 / 2)

end Tri

/-- triangle.h:132-142 `triangle<3>::area` -/
noncomputable def triArea3 (p0 p1 p2 : Vec 3 ℝ) : ℝ :=
  let u : Vec 3 ℝ := ![p1 0 - p0 0, p1 1 - p0 1, p1 2 - p0 2]
  let v : Vec 3 ℝ := ![p2 0 - p0 0, p2 1 - p0 1, p2 2 - p0 2]
  (1 / 2) * magnitude (cross3 u v)

/-! ## 2D polygons -/

section Poly2
variable {K : Type} [Field K]

/-- area_impl.h:22-38, polygon.h:70-87 `area_(vol, v1, v2, args...)` -/
def areaRec {K : Type} [Add K] [Sub K] [Mul K] (vol : K) : List (Vec 2 K) → K
  | v1 :: v2 :: args => areaRec (vol + (v1 0 * v2 1 - v2 0 * v1 1)) (v2 :: args)
  | _ => vol

/-- polygon.h:222-242 `polygon<2>::area(t, args...)` (at least three points), also
area.h:22-38 (at least four points) and quadrilateral.h:64-68 -/
def areaPack [LinearOrder K] (t : Vec 2 K) (args : List (Vec 2 K)) : K :=
  |areaRec 0 (t :: (args ++ [t])) / 2|

/-- the walk `po = prev(last); for (pn = first; pn != last; ++pn) { acc; po = pn; }` shared by
all the iterator overloads; UB on an empty range; polygon.h:188-195, 262-266, 333-337 and so on -/
def walk {S : Type} (acc : S → P → P → S) (s : S) (pts : List P) : Outcome S :=
  match pts.getLast? with
  | none => .ub
  | some last => .ok (pts.foldl (fun (st : P × S) pn => (pn, acc st.2 st.1 pn)) (last, s)).2

/-- polygon.h:249-269 `polygon<2>::area(first,last)` and the container overload, polygon.h:275-283 -/
def areaIter [LinearOrder K] (pts : List (Vec 2 K)) : Outcome K := do
  Outcome.assert (decide (pts.length > 2))
  let a ← walk (fun (a : K) po pn => a + (po 0 * pn 1 - pn 0 * po 1)) 0 pts
  .ok |a / 2|

/-- area.h:43-63 `area_2d(points)`: same walk by index -/
def area2d [LinearOrder K] (pts : List (Vec 2 K)) : Outcome K := do
  Outcome.assert (decide (pts.length > 2))
  match pts.getLast? with
  | none => .ub
  | some back =>
    let r := (List.range pts.length).foldl (fun (st : Outcome (Vec 2 K × K)) i => do
      let (po, a) ← st
      let pn ← rd pts i
      .ok (pn, a + (po 0 * pn 1 - pn 0 * po 1))) (.ok (back, 0))
    (do let (_, a) ← r; .ok |a / 2|)

/-- polygon.h:291-312 `polygon<2>::normal(t, args...)` -/
def normalPack2 (t : Vec 2 K) (args : List (Vec 2 K)) : Vec 2 K := ![0, areaRec 0 (t :: (args ++ [t])) / 2]

/-- polygon.h:319-340 `polygon<2>::normal(first,last)` -/
def normalIter2 (pts : List (Vec 2 K)) : Outcome (Vec 2 K) := do
  Outcome.assert (decide (pts.length > 2))
  let a ← walk (fun (a : K) po pn => a + (po 0 * pn 1 - pn 0 * po 1)) 0 pts
  .ok ![0, a / 2]

/-- polygon.h:46-67, centroid_impl.h:22-42 `centroid_(cx, vol, v1, v2, args...)` -/
def centroidRec (cx : Vec 2 K) (vol : K) : List (Vec 2 K) → Vec 2 K × K
  | v1 :: v2 :: args =>
    let tmp := v1 0 * v2 1 - v2 0 * v1 1
    centroidRec ![cx 0 + (v1 0 + v2 0) * tmp, cx 1 + (v1 1 + v2 1) * tmp] (vol + tmp) (v2 :: args)
  | _ => (cx, vol)

/-- `cx /= s` where a zero divisor gives NaN -/
def divOrNaN [DecidableEq K] (cx : Vec d K) (s : K) : Outcome (Vec d K) :=
  if s = 0 then .throws "NaN" else .ok (divBy cx s)

/-- polygon.h:143-165 `polygon<2>::centroid(t, args...)`, also centroid.h:27-45 -/
def centroidPack2 [DecidableEq K] (t : Vec 2 K) (args : List (Vec 2 K)) : Outcome (Vec 2 K) :=
  let r := centroidRec (fun _ => 0) 0 (t :: (args ++ [t]))
  divOrNaN r.1 (3 * r.2)

/-- polygon.h:172-200 `polygon<2>::centroid(first,last)`, also centroid.h:50-76 -/
def centroidIter2 [DecidableEq K] (pts : List (Vec 2 K)) : Outcome (Vec 2 K) := do
  Outcome.assert (decide (pts.length > 2))
  let r ← walk (fun (st : Vec 2 K × K) po pn =>
    let tmp := po 0 * pn 1 - pn 0 * po 1
    let a := st.2 + tmp
    (![st.1 0 + tmp * (po 0 + pn 0), st.1 1 + tmp * (po 1 + pn 1)], a)) (fun _ => 0, 0) pts
  divOrNaN r.1 (3 * r.2)

/-- area.h:68-80 `area(points)` for points of `d` coordinates, `points[0].size()`: other dimensions
than two end at `assert(false)` -/
def areaOf [LinearOrder K] : (d : Nat) → List (Vec d K) → Outcome K
  | 2, pts => do
    Outcome.assert (decide (pts.length > 0))
    area2d pts
  | _, _ => .assertFail

/-- centroid.h:81-94 `centroid(points)` for points of `d` coordinates -/
def centroidOf [DecidableEq K] : (d : Nat) → List (Vec d K) → Outcome (Vec d K)
  | 2, pts => do
    Outcome.assert (decide (pts.length > 0))
    centroidIter2 pts
  | _, pts => do
    Outcome.assert (decide (pts.length > 0))
    .throws "not implemented"

end Poly2

/-! ## 3D polygons -/

section Poly3
variable {K : Type} [Field K]

/-- polygon.h:424-442 `normal_(n, vm, v1, v2, args...)` -/
def normalRec (n : Vec 3 K) (vm : Vec 3 K) : List (Vec 3 K) → Vec 3 K
  | v1 :: v2 :: args => normalRec (addTo n (triNormal3 v1 v2 vm)) vm (v2 :: args)
  | _ => n

/-- polygon.h:656-678 `polygon<3>::normal(t, args...)`, enabled for four or more points only -/
def normalPack3 (t : Vec 3 K) (args : List (Vec 3 K)) : Vec 3 K :=
  let xm := averagePackPts t args
  normalRec (fun _ => 0) xm (t :: (args ++ [t]))

/-- polygon.h:685-709 `polygon<3>::normal(first,last)` -/
def normalIter3 (pts : List (Vec 3 K)) : Outcome (Vec 3 K) := do
  Outcome.assert (decide (pts.length > 3))
  let xm ← averageRangePts pts
  walk (fun (n : Vec 3 K) po pn => addTo n (triNormal3 po pn xm)) (fun _ => 0) pts

end Poly3

noncomputable section Poly3Real

/-- polygon.h:374-392 `area_(vol, vm, v1, v2, args...)` -/
def areaRec3 (vol : ℝ) (vm : Vec 3 ℝ) : List (Vec 3 ℝ) → ℝ
  | v1 :: v2 :: args => areaRec3 (vol + triArea3 v1 v2 vm) vm (v2 :: args)
  | _ => vol

/-- polygon.h:581-604 `polygon<3>::area(t, args...)` -/
def areaPack3 (t : Vec 3 ℝ) (args : List (Vec 3 ℝ)) : ℝ :=
  areaRec3 0 (averagePackPts t args) (t :: (args ++ [t]))

/-- polygon.h:611-635 `polygon<3>::area(first,last)` -/
def areaIter3 (pts : List (Vec 3 ℝ)) : Outcome ℝ := do
  Outcome.assert (decide (pts.length > 3))
  let xm ← averageRangePts pts
  walk (fun (a : ℝ) po pn => a + triArea3 po pn xm) 0 pts

/-- polygon.h:529-559 `polygon<3>::centroid(first,last)` -/
def centroidIter3 (pts : List (Vec 3 ℝ)) : Outcome (Vec 3 ℝ) := do
  Outcome.assert (decide (pts.length > 3))
  let xm ← averageRangePts pts
  let r ← walk (fun (st : Vec 3 ℝ × ℝ) po pn =>
    let tmpA := triArea3 po pn xm
    let tmpC := triMid po pn xm
    (fun d => st.1 d + tmpA * tmpC d, st.2 + tmpA)) (fun _ => 0, 0) pts
  if r.2 = 0 then .throws "NaN" else .ok (divBy r.1 r.2)

/-- polygon.h:397-419 `centroid_(vol, cx, vm, v1, v2, args...)` -/
def centroidRec3 (vm : Vec 3 ℝ) (cx : Vec 3 ℝ) (vol : ℝ) : List (Vec 3 ℝ) → Vec 3 ℝ × ℝ
  | v1 :: v2 :: args =>
    let tmpVol := triArea3 v1 v2 vm
    let tmpCx := triMid v1 v2 vm
    centroidRec3 vm (fun d => cx d + tmpVol * tmpCx d) (vol + tmpVol) (v2 :: args)
  | _ => (cx, vol)

/-- polygon.h:497-522 `polygon<3>::centroid(t, args...)`, enabled for four or more points only -/
def centroidPack3 (t : Vec 3 ℝ) (args : List (Vec 3 ℝ)) : Outcome (Vec 3 ℝ) :=
  let r := centroidRec3 (averagePackPts t args) (fun _ => 0) 0 (t :: (args ++ [t]))
  if r.2 = 0 then .throws "NaN" else .ok (divBy r.1 r.2)

end Poly3Real

/-! ## Tetrahedra -/

section Tet
variable {K : Type} [Field K]

/-- tetrahedron.h:29-51 `midpoint` = `centroid` -/
def tetMid (p0 p1 p2 p3 : Vec 3 K) : Vec 3 K := fun i => (1 / 4) * (p0 i + p1 i + p2 i + p3 i)

/-- tetrahedron.h:60-72, the expression `det` -/
def tetDet {K : Type} [Add K] [Sub K] [Mul K] (pt0 pt1 pt2 pt3 : Vec 3 K) : K :=
  pt3 0 * pt2 1 * pt1 2 - pt2 0 * pt3 1 * pt1 2 -
  pt3 0 * pt1 1 * pt2 2 + pt1 0 * pt3 1 * pt2 2 +
  pt2 0 * pt1 1 * pt3 2 - pt1 0 * pt2 1 * pt3 2 -
  pt3 0 * pt2 1 * pt0 2 + pt2 0 * pt3 1 * pt0 2 +
  pt3 0 * pt0 1 * pt2 2 - pt0 0 * pt3 1 * pt2 2 -
  pt2 0 * pt0 1 * pt3 2 + pt0 0 * pt2 1 * pt3 2 +
  pt3 0 * pt1 1 * pt0 2 - pt1 0 * pt3 1 * pt0 2 -
  pt3 0 * pt0 1 * pt1 2 + pt0 0 * pt3 1 * pt1 2 +
  pt1 0 * pt0 1 * pt3 2 - pt0 0 * pt1 1 * pt3 2 -
  pt2 0 * pt1 1 * pt0 2 + pt1 0 * pt2 1 * pt0 2 +
  pt2 0 * pt0 1 * pt1 2 - pt0 0 * pt2 1 * pt1 2 -
  pt1 0 * pt0 1 * pt2 2 + pt0 0 * pt1 1 * pt2 2

/-- tetrahedron.h:56-74 `volume` -/
def tetVolume [LinearOrder K] (pt0 pt1 pt2 pt3 : Vec 3 K) : K := |tetDet pt0 pt1 pt2 pt3| / 6

end Tet

/-! ## Hexahedra -/

section Hex
variable {K : Type} [Field K]

/-- accumulated state of the centroid loops: `vol`, `cx`, `nsum` -/
structure CentAcc (K : Type) where
  vol : K
  cx : Vec 3 K
  nsum : Vec 3 K

/-- one edge of hexahedron.h:36-67 `centroid__` -/
def hexEdge (vm : Vec 3 K) (st : CentAcc K) (v1 v2 : Vec 3 K) : CentAcc K :=
  let n := triNormal3 v1 v2 vm
  { nsum := addTo st.nsum n
    cx := fun d =>
      let a1 := sqr (v1 d + v2 d)
      let a2 := sqr (v2 d + vm d)
      let a3 := sqr (vm d + v1 d)
      st.cx d + (a1 + a2 + a3) * n d
    vol := st.vol + dot n vm }

/-- hexahedron.h:28-67 `centroid__(vol, cx, nsum, vm, v1, v2, args...)` -/
def hexCentRec (vm : Vec 3 K) (st : CentAcc K) : List (Vec 3 K) → CentAcc K
  | v1 :: v2 :: args => hexCentRec vm (hexEdge vm st v1 v2) (v2 :: args)
  | _ => st

/-- quadrilateral.h:122-135 `quadrilateral<3>::midpoint` (two-dimensional one at 47-60) -/
def quadMid (p0 p1 p2 p3 : Vec d K) : Vec d K := fun i => (1 / 4) * (p0 i + p1 i + p2 i + p3 i)

/-- hexahedron.h:70-83 `centroid_` for one face -/
def hexFace (st : CentAcc K) (p0 p1 p2 p3 : Vec 3 K) : CentAcc K :=
  hexCentRec (quadMid p0 p1 p2 p3) st [p0, p1, p2, p3, p0]

/-- hexahedron.h:97-129 `centroid`, before the division -/
def hexCentAcc (p : Fin 8 → Vec 3 K) : CentAcc K :=
  let s := ({ vol := 0, cx := fun _ => 0, nsum := fun _ => 0 } : CentAcc K)
  let s := hexFace s (p 0) (p 1) (p 2) (p 3)
  let s := hexFace s (p 4) (p 7) (p 6) (p 5)
  let s := hexFace s (p 0) (p 4) (p 5) (p 1)
  let s := hexFace s (p 1) (p 5) (p 6) (p 2)
  let s := hexFace s (p 2) (p 6) (p 7) (p 3)
  hexFace s (p 3) (p 7) (p 4) (p 0)

/-- hexahedron.h:97-129 `centroid` -/
def hexCentroid [DecidableEq K] (p : Fin 8 → Vec 3 K) : Outcome (Vec 3 K) :=
  let s := hexCentAcc p
  divOrNaN s.cx (8 * s.vol)

/-- hexahedron.h:134-147 `midpoint` -/
def hexMid (p : Fin 8 → Vec 3 K) : Vec 3 K :=
  fun i => (1 / 8) * (p 0 i + p 1 i + p 2 i + p 3 i + p 4 i + p 5 i + p 6 i + p 7 i)

/-- the differences and sums of hexahedron.h:159-167 -/
def vsub (a b : Vec 3 K) : Vec 3 K := ![a 0 - b 0, a 1 - b 1, a 2 - b 2]
/-- the sums of hexahedron.h:159-167 -/
def vadd (a b : Vec 3 K) : Vec 3 K := ![a 0 + b 0, a 1 + b 1, a 2 + b 2]

/-- the three triple products of hexahedron.h:168-171 -/
def hexT (p : Fin 8 → Vec 3 K) : K × K × K :=
  let d20 := vsub (p 2) (p 0)
  let d50 := vsub (p 5) (p 0)
  let d61 := vsub (p 6) (p 1)
  let d63 := vsub (p 6) (p 3)
  let d64 := vsub (p 6) (p 4)
  let d70 := vsub (p 7) (p 0)
  (triple (vadd d61 d70) d63 d20, triple d70 (vadd d63 d50) d64, triple d61 d50 (vadd d64 d20))

/-- hexahedron.h:152-173 `volume` -/
def hexVolume [LinearOrder K] (p : Fin 8 → Vec 3 K) : K :=
  let t := hexT p
  (|t.1| + |t.2.1| + |t.2.2|) / 12

end Hex

/-! ## Polyhedra -/

section Polyhedron
variable {K : Type} [Field K]

/-- polyhedron.h:43-62 `insert`: copies the face to the end of `faces_` -/
def insertFace (faces : List (List (Vec 3 K))) (pts : List (Vec 3 K)) : List (List (Vec 3 K)) :=
  faces ++ [pts]

/-- inner part of polyhedron.h:162-192 `volume`, one face -/
def volFace (v : Outcome K) (points : List (Vec 3 K)) : Outcome K := do
  let v ← v
  let xm ← averageRangePts points
  walk (fun (v : K) po pn => v + dot (triNormal3 po pn xm) xm) v points

/-- polyhedron.h:162-192 `volume` -/
def polyVolume [LinearOrder K] (faces : List (List (Vec 3 K))) : Outcome K := do
  let v ← faces.foldl volFace (.ok 0)
  .ok (|v| / 3)

/-- one edge of polyhedron.h:68-121 -/
def polyEdge (xm : Vec 3 K) (st : Vec 3 K × K) (po pn : Vec 3 K) : Vec 3 K × K :=
  let n := triNormal3 po pn xm
  let a1 := addTo po pn
  let a2 := addTo pn xm
  let a3 := addTo xm po
  let prod : Vec 3 K := fun d => (a1 d * a1 d + a2 d * a2 d + a3 d * a3 d) * n d
  (addTo st.1 prod, st.2 + dot n xm)

/-- inner part of polyhedron.h:68-121 `centroid`, one face (`nsum` is unused there) -/
def centFace (st : Outcome (Vec 3 K × K)) (points : List (Vec 3 K)) : Outcome (Vec 3 K × K) := do
  let st ← st
  let xm ← averageRangePts points
  walk (polyEdge xm) st points

/-- polyhedron.h:68-121 `centroid` -/
def polyCentroid [DecidableEq K] (faces : List (List (Vec 3 K))) : Outcome (Vec 3 K) := do
  let r ← faces.foldl centFace (.ok (fun _ => 0, 0))
  divOrNaN r.1 (8 * r.2)

/-- polyhedron.h:126-148 `midpoint`: average of the face averages -/
def polyMidpoint [DecidableEq K] (faces : List (List (Vec 3 K))) : Outcome (Vec 3 K) := do
  let cx ← faces.foldl (fun (cx : Outcome (Vec 3 K)) points => do
    let cx ← cx
    let xm ← averageRangePts points
    .ok (addTo cx xm)) (.ok (fun _ => 0))
  divOrNaN cx (faces.length : K)

end Polyhedron

/-! ## space_vector.h, normal.h, point.h -/

section Space
variable {K : Type} [CommRing K]

/-- geometry/normal.h:24-32 and space_vector.h:133-138 -/
def normalLine2 (a b : Vec 2 K) : Vec 2 K := ![a 1 - b 1, b 0 - a 0]

/-- geometry/normal.h:39-49 and space_vector.h:143-150 -/
def normalLine3 (a b : Vec 3 K) : Vec 3 K :=
  ![a 1 * b 2 - a 2 * b 1, a 2 * b 0 - a 0 * b 2, a 0 * b 1 - a 1 * b 0]

/-- space_vector.h:46-53 `point_to_vector`; `sv` starts uninitialised -/
def pointToVector (sv p : Vec d K) : Vec d K := forLoop d (fun i sv => upd sv i (p i)) sv

/-- space_vector.h:58-65 `operator*(v, s)` -/
def svScale (v : Vec d K) (s : K) : Vec d K := forLoop d (fun i tmp => upd tmp i (s * v i)) v

/-- space_vector.h:70-80 `dot` -/
def svDot (a b : Vec d K) : K := forLoop d (fun i sum => sum + a i * b i) 0

/-- space_vector.h:100-104 `cross_magnitude`, 1D -/
def crossMagnitude1 (_a _b : Vec 1 K) : K := 0

/-- space_vector.h:109-113 `cross_magnitude`, 2D -/
def crossMagnitude2 [LinearOrder K] (a b : Vec 2 K) : K := |a 0 * b 1 - a 1 * b 0|

end Space

/-- space_vector.h:85-94 `magnitude` -/
noncomputable def svMagnitude (a : Vec d ℝ) : ℝ := Real.sqrt (forLoop d (fun i sum => sum + a i * a i) 0)

/-- space_vector.h:118-126 `cross_magnitude`, 3D; `cross` starts uninitialised -/
noncomputable def crossMagnitude3 (cross a b : Vec 3 ℝ) : ℝ :=
  let cross := upd cross 0 (a 1 * b 2 - a 2 * b 1)
  let cross := upd cross 1 (-a 0 * b 2 + a 2 * b 0)
  let cross := upd cross 2 (a 0 * b 1 - a 1 * b 0)
  svMagnitude cross

/-- point.h:36-46 `distance` -/
noncomputable def distance (a b : Vec d ℝ) : ℝ :=
  Real.sqrt (forLoop d (fun i s => s + (a i - b i) * (a i - b i)) 0)

end Verif.Geometry
