import Verif.Common.Loop
import Verif.Common.Outcome
import Mathlib.Algebra.Ring.Defs
import Mathlib.Algebra.Field.Defs
import Mathlib.Algebra.Order.Field.Basic
import Mathlib.Algebra.Order.AbsoluteValue.Basic

/-!
# Model of `ristra/math/matrix.h`

A `matrix<T,D1,D2>` is its element function `(i,j) ↦ a(i,j)`; `Verif.MultiArray` proves that
this is what the flat storage is.  Scalars are elements of a field (exact arithmetic: no
rounding, no overflow).  `tmp` parameters are uninitialised results.  `assert` failures are
outcomes.
-/

namespace Verif.Mat

/-- `matrix<T,D1,D2>`, matrix.h:29, as its element function -/
abbrev Mat (m n : Nat) (K : Type u) := Fin m → Fin n → K
/-- `array<T,D>`, as its element function -/
abbrev Vec (n : Nat) (K : Type u) := Fin n → K

/-- `M(i,j) = v` -/
def mset (M : Mat m n K) (i : Fin m) (j : Fin n) (v : K) : Mat m n K :=
  fun a b => if a = i ∧ b = j then v else M a b

/-- `M[p] = v`: store at a flat (row-major) position -/
def fset (M : Mat m n K) (p : Nat) (v : K) : Mat m n K :=
  fun a b => if a.1 * n + b.1 = p then v else M a b

/-- `for i<m, for j<n: M(i,j) = f(i,j,M(i,j))` -/
def forEach (f : Fin m → Fin n → K → K) (M : Mat m n K) : Mat m n K :=
  forLoop m (fun i M => forLoop n (fun j M => mset M i j (f i j (M i j))) M) M

section Ring
variable {K : Type u} [Zero K] [One K] [Add K] [Mul K] [Neg K]

/-- `outer_product(a,b)`, matrix.h:39-60: an iterator walks over the result -/
def outerProduct (tmp : Mat D D K) (a b : Vec D K) : Mat D D K :=
  (forLoop D (fun i st => forLoop D (fun j (st : Nat × Mat D D K) =>
    (st.1 + 1, fset st.2 st.1 (a i * b j))) st) ((0, tmp) : Nat × Mat D D K)).2

/-- `outer_product(a,b,c,fact)`, matrix.h:74-92: `c[i*D+j] += fact * a[i] * b[j]` -/
def outerProductAcc (a b : Vec D K) (c : Mat D D K) (fact : K) : Mat D D K :=
  forLoop D (fun i c => forLoop D (fun j c => fset c (i.1 * D + j.1) (c i j + fact * a i * b j)) c) c

/-- `tmp(row_cnt,col_cnt) = v` with the range assertion of `operator()`; matrix.h:105-130 -/
def setChecked (M : Mat m n K) (r c : Nat) (v : K) : Outcome (Mat m n K) :=
  if h : r < m ∧ c < n then .ok (mset M ⟨r, h.1⟩ ⟨c, h.2⟩ v) else .assertFail

/-- inner loop body of `cofactor`; the state is row counter, column counter, result; matrix.h:105-130 -/
def cofCell (mat : Mat (N + 1) (N + 1) K) (col : Nat) (i j : Fin (N + 1)) 
    (st : Outcome (Nat × Nat × Mat N N K)) : Outcome (Nat × Nat × Mat N N K) := do
  let (r, c, tmp) ← st
  if j.1 ≠ col then
    let tmp' ← setChecked tmp r c (mat i j)
    .ok (r, c + 1, tmp')
  else .ok (r, c, tmp)

/-- outer loop body of `cofactor`; matrix.h:105-130 -/
def cofRow (mat : Mat (N + 1) (N + 1) K) (row col : Nat) (i : Fin (N + 1)) 
    (st : Outcome (Nat × Nat × Mat N N K)) : Outcome (Nat × Nat × Mat N N K) := do
  let (r, _, tmp) ← st
  if i.1 ≠ row then
    let (r, c, tmp) ← forLoop (N + 1) (cofCell mat col i) (.ok (r, 0, tmp))
    .ok (r + 1, c, tmp)
  else st

/-- `cofactor(mat,row,col)`, matrix.h:104-130: the minor without that row and column -/
def cofactor (tmp : Mat N N K) (mat : Mat (N + 1) (N + 1) K) (row col : Nat) : Outcome (Mat N N K) := do
  let (_, _, t) ← forLoop (N + 1) (cofRow mat row col) (.ok (0, 0, tmp))
  .ok t

/-- `determinant(mat)`, matrix.h:140-164: expansion along row 0; size `N+1`.  The uninitialised
minors are filled by `cofactor`; they start as zero here, which `cofactor_ok` shows does not
matter. -/
def determinant : (N : Nat) → Mat (N + 1) (N + 1) K → Outcome K
  | 0, mat => .ok (mat 0 0)
  | N + 1, mat =>
    forLoop (N + 2) (fun i det => do
      let det ← det
      let minor ← cofactor (fun _ _ => 0) mat 0 i.1
      let d ← determinant N minor
      .ok (det + (if i.1 % 2 = 1 then -1 else 1) * mat 0 i * d)) (.ok 0)

/-- `ax_plus_y`, matrix.h:283-293 -/
def axPlusY (A : Mat m n K) (x : Vec n K) (y : Vec m K) : Vec m K :=
  forLoop m (fun i y => forLoop n (fun j y => upd y i (y i + A i j * x j)) y) y

/-- `ax_plus_y(A,y,y)`: both vectors the same object; matrix.h:287-291 -/
def axPlusYAlias (A : Mat n n K) (y : Vec n K) : Vec n K :=
  forLoop n (fun i y => forLoop n (fun j y => upd y i (y i + A i j * y j)) y) y

/-- `matrix_vector`, matrix.h:295-310: `y[i] = alpha*A(i,j)*x[j] + beta*y[i]` in the inner loop -/
def matrixVector (alpha : K) (A : Mat m n K) (x : Vec n K) (beta : K) (y : Vec m K) : Vec m K :=
  forLoop m (fun i y => forLoop n (fun j y => upd y i (alpha * A i j * x j + beta * y i)) y) y

/-- `operator*(matrix, vector)`, matrix.h:320-333 -/
def mulVec (tmp : Vec m K) (A : Mat m n K) (x : Vec n K) : Vec m K :=
  forLoop m (fun i tmp => forLoop n (fun j tmp => upd tmp i (tmp i + A i j * x j)) (upd tmp i 0)) tmp

/-- `matrix_multiply(A,B,C)`, matrix.h:344-359: adds into `C` -/
def matMulAcc (A : Mat m n K) (B : Mat n p K) (C : Mat m p K) : Mat m p K :=
  forLoop m (fun i C => forLoop p (fun j C =>
    let sum := forLoop n (fun k s => s + A i k * B k j) 0
    mset C i j (C i j + sum)) C) C

/-- `matrix_multiply(A,B)`, matrix.h:361-377 -/
def matMul (A : Mat m n K) (B : Mat n p K) : Mat m p K := matMulAcc A B (fun _ _ => 0)

/-- `reflection_matrix`, matrix.h:435-447: `mat = -2*mat` is `(-2)*mat`; diagonal `+= 1` -/
def reflectionMatrix [OfNat K 2] (tmp : Mat D D K) (n : Vec D K) : Mat D D K :=
  let mat := outerProduct tmp n n
  let mat := fun i j => (-2) * mat i j
  forLoop D (fun i mat => mset mat i i (mat i i + 1)) mat

/-- `projection_matrix`, matrix.h:455-467 -/
def projectionMatrix (tmp : Mat D D K) (n : Vec D K) : Mat D D K :=
  let mat := outerProduct tmp n n
  let mat := fun i j => - mat i j
  forLoop D (fun i mat => mset mat i i (mat i i + 1)) mat

/-- `rotation_matrix`, matrix.h:406-427 (only `D = 2` compiles), given the cosine and sine -/
def rotationMatrix (tmp : Mat 2 2 K) (cos sin : K) : Mat 2 2 K :=
  let rot := forLoop 2 (fun i rot => mset rot i i 1) tmp
  let rot := mset rot 0 0 cos
  let rot := mset rot 0 1 (-sin)
  let rot := mset rot 1 0 sin
  mset rot 1 1 cos

/-- `identity_matrix`, matrix.h:521-532 -/
def identityMatrix (N : Nat) : Mat N N K :=
  forLoop N (fun i mat => mset mat i i 1) (fun _ _ => 0)

/-- `trace_matrix`, matrix.h:534-545 -/
def traceMatrix (M : Mat N N K) : K := forLoop N (fun i s => s + M i i) 0

/-- `doubledot_product`, matrix.h:621-636 -/
def doubledot (A B : Mat m n K) : K :=
  forLoop m (fun i dd => forLoop n (fun j dd => dd + A i j * B i j) dd) 0

end Ring

/-- `transpose`, matrix.h:547-560 -/
def transpose (tmp : Mat n m K) (M : Mat m n K) : Mat n m K :=
  forLoop m (fun i t => forLoop n (fun j t => mset t j i (M i j)) t) tmp

section Field
variable {K : Type u} [Field K] [DecidableEq K]

/-- `tmp /= denom` (multi_array.h:533-538): multiply by the reciprocal -/
def divAssign (M : Mat m n K) (d : K) : Mat m n K :=
  let inv := 1 / d
  fun i j => M i j * inv

/-- `inverse` of 1×1, matrix.h:174-182 -/
def inverse1 (tmp : Mat 1 1 K) (mat : Mat 1 1 K) : Outcome (Mat 1 1 K) :=
  let a := mat 0 0
  if a ≠ 0 then .ok (mset tmp 0 0 (1 / a)) else .assertFail

/-- `inverse` of 2×2, matrix.h:184-200 -/
def inverse2 (tmp : Mat 2 2 K) (mat : Mat 2 2 K) : Outcome (Mat 2 2 K) :=
  let a := mat 0 0
  let b := mat 0 1
  let c := mat 1 0
  let d := mat 1 1
  let tmp := mset tmp 0 0 d
  let tmp := mset tmp 0 1 (-b)
  let tmp := mset tmp 1 0 (-c)
  let tmp := mset tmp 1 1 a
  let denom := a * d - b * c
  if denom ≠ 0 then .ok (divAssign tmp denom) else .assertFail

/-- `inverse` of 3×3, matrix.h:202-240 -/
def inverse3 (tmp : Mat 3 3 K) (mat : Mat 3 3 K) : Outcome (Mat 3 3 K) :=
  let a11 := mat 0 0
  let a12 := mat 0 1
  let a13 := mat 0 2
  let a21 := mat 1 0
  let a22 := mat 1 1
  let a23 := mat 1 2
  let a31 := mat 2 0
  let a32 := mat 2 1
  let a33 := mat 2 2
  let tmp := mset tmp 0 0 (a22 * a33 - a32 * a23)
  let tmp := mset tmp 0 1 (a13 * a32 - a33 * a12)
  let tmp := mset tmp 0 2 (a12 * a23 - a22 * a13)
  let tmp := mset tmp 1 0 (a23 * a31 - a33 * a21)
  let tmp := mset tmp 1 1 (a11 * a33 - a31 * a13)
  let tmp := mset tmp 1 2 (a13 * a21 - a23 * a11)
  let tmp := mset tmp 2 0 (a21 * a32 - a31 * a22)
  let tmp := mset tmp 2 1 (a12 * a31 - a32 * a11)
  let tmp := mset tmp 2 2 (a11 * a22 - a21 * a12)
  let denom := a11 * a22 * a33 + a12 * a23 * a31 + a13 * a21 * a32 -
    a31 * a22 * a13 - a32 * a23 * a11 - a33 * a21 * a12
  if denom ≠ 0 then .ok (divAssign tmp denom) else .assertFail

/-- `inverse` of N×N, matrix.h:244-270 (`N ≥ 2` here; used by the code from 4 on).
`std::abs(det) > 0` is `det ≠ 0`. -/
def inverseN (tmp : Mat (N + 2) (N + 2) K) (mat : Mat (N + 2) (N + 2) K) : Outcome (Mat (N + 2) (N + 2) K) := do
  let det ← determinant (N + 1) mat
  if det ≠ 0 then
    let invDet := 1 / det
    forLoop (N + 2) (fun j st => forLoop (N + 2) (fun i st => do
      let tmp ← st
      let minor ← cofactor (fun _ _ => 0) mat j.1 i.1
      let d ← determinant N minor
      let val := invDet * d
      let val := if (i.1 + j.1) % 2 = 1 then -val else val
      .ok (mset tmp i j val)) st) (.ok tmp)
  else .assertFail

/-- overload resolution of `inverse`; size `N+1`; matrix.h:175-265 -/
def inverse : {N : Nat} → (tmp mat : Mat (N + 1) (N + 1) K) → Outcome (Mat (N + 1) (N + 1) K)
  | 0, tmp, mat => inverse1 tmp mat
  | 1, tmp, mat => inverse2 tmp mat
  | 2, tmp, mat => inverse3 tmp mat
  | _ + 3, tmp, mat => inverseN tmp mat

/-- `solve(A,b)`, matrix.h:387-397 -/
def solve (tmp A : Mat (N + 1) (N + 1) K) (b : Vec (N + 1) K) : Outcome (Vec (N + 1) K) := do
  let inv ← inverse tmp A
  .ok (axPlusY inv b (fun _ => 0))

end Field

section Norms
variable {K : Type u} [Field K] [LinearOrder K]

/-- `infinity_norm`, matrix.h:469-486 -/
def infinityNorm (M : Mat N N K) : K :=
  forLoop N (fun i norm => max norm (forLoop N (fun j s => s + |M i j|) 0)) 0

/-- `one_norm`, matrix.h:488-505 -/
def oneNorm (M : Mat N N K) : K :=
  forLoop N (fun j norm => max norm (forLoop N (fun i s => s + |M i j|) 0)) 0

/-- `two_norm`, matrix.h:507-519, with the square root as a parameter -/
def twoNorm (sqrt : K → K) (M : Mat N N K) : K :=
  sqrt (forLoop N (fun i s => forLoop N (fun j s => s + M i j * M i j) s) 0)

end Norms

end Verif.Mat
