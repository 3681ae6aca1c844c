import Verif.Mat.Model
import Mathlib.Analysis.SpecialFunctions.Log.Basic
import Mathlib.Algebra.Order.Floor.Ring

/-!
# Model of `exponential` (`ristra/math/matrix.h` lines 562-618)

Real arithmetic.  `std::log(0)` is `-inf`, and converting it to `int` is undefined.
-/

namespace Verif.Mat

/-- `static_cast<int>(x)` of a finite value: truncation towards zero (no overflow) -/
noncomputable def truncInt (x : ℝ) : ℤ := if 0 ≤ x then ⌊x⌋ else ⌈x⌉

/-- matrix.h:574-585: the number of halvings -/
noncomputable def expScaling (norm : ℝ) : Outcome Nat :=
  if norm = 0 then .ub
  else
    let coef := Real.log norm / Real.log 2 + 1
    .ok (max 0 (truncInt coef + 1)).toNat

/-- matrix.h:596-609: one round of the loop on `(c, X, E, D)`, with `ii = k + 2` and `q = 6` -/
noncomputable def padeRound (A : Mat N N ℝ) (k : Fin 5) (st : ℝ × Mat N N ℝ × Mat N N ℝ × Mat N N ℝ) :
    ℝ × Mat N N ℝ × Mat N N ℝ × Mat N N ℝ :=
  let (c, X, E, D) := st
  let ii := k.1 + 2
  let c := c * (((6 - ii + 1 : Nat) : ℝ) / ((ii * (2 * 6 - ii + 1) : Nat) : ℝ))
  let X := matMul A X
  let E := fun i j => c * X i j + E i j
  let D := if ii % 2 = 1 then fun i j => D i j - c * X i j else fun i j => D i j + c * X i j
  (c, X, E, D)

/-- `exponential(mat)`, matrix.h:562-618; size `N+1` -/
noncomputable def exponential (tmp mat : Mat (N + 1) (N + 1) ℝ) : Outcome (Mat (N + 1) (N + 1) ℝ) := do
  let s ← expScaling (infinityNorm mat)
  let A := divAssign mat (2 ^ s)
  let E : Mat (N + 1) (N + 1) ℝ := fun i j => identityMatrix (N + 1) i j + 0.5 * A i j
  let D : Mat (N + 1) (N + 1) ℝ := fun i j => identityMatrix (N + 1) i j - 0.5 * A i j
  let (_, _, E, D) := forLoop 5 (padeRound A) (0.5, A, E, D)
  let Dinv ← inverse tmp D
  .ok (forLoop s (fun _ E => matMul E E) (matMul Dinv E))

end Verif.Mat
