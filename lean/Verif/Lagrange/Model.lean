import Verif.Common.Outcome
import Mathlib.Algebra.Field.Defs
import Mathlib.Algebra.Field.Rat
import Mathlib.Analysis.SpecialFunctions.Trigonometric.Basic

/-!
# Model of `ristra/elements/elements.cc`: the elements of arbitrary order, `QuadN` and `HexN`

`std::vector<real_t>` is a function from indices to numbers; the vectors are taken to have the
sizes the functions index (a smaller vector is undefined behaviour) and not to alias each other.
Numbers are the elements of a field: rounding is not modelled, but a division by zero is (the
result is then infinite or not a number): outcome `throws "NaN"`.  `int` is `Int` without
overflow.

`QuadN` and `HexN` have the same `chebyshev_nodes_1D` and `lagrange_1D`, word for word.

Not modelled: the printing in `corners`, and the vectors `num`, `denom` and the outer `s` of
`lagrange_1D`, which nothing reads.
-/

namespace Verif.Lagrange

/-- `a[m][d] = v;` -/
def set2 {R : Type} (a : Nat → Nat → R) (m d : Nat) (v : R) : Nat → Nat → R :=
  Function.update a m (Function.update (a m) d v)

/-- `for (i = 0; i < n; i++)` -/
def loop {σ : Type} (n : Nat) (body : σ → Nat → σ) (s : σ) : σ := (List.range n).foldl body s

/-- the same when the body can fail -/
def loopM {σ : Type} (n : Nat) (body : σ → Nat → Outcome σ) (s : σ) : Outcome σ :=
  (List.range n).foldlM body s

section
variable {R : Type} [Field R] [DecidableEq R]

/-- the variables of the inner loop of `lagrange_1D`; `finite` is false once a divisor was zero; elements.cc:2192-2196 -/
structure Inner (R : Type) where
  n : R
  d : R
  c : R
  p : R
  q : R
  finite : Bool

/-- the innermost loop, elements.cc:2203-2210 and 2466-2473 -/
def lagrangeS (x : R) (xi : Nat → R) (orderN i j : Nat) : R :=
  loop (orderN + 1) (fun s N => if N ≠ j ∧ N ≠ i then s * (x - xi N) else s) 1

/-- the body of the loop over `j`, elements.cc:2197-2217 and 2460-2480 -/
def lagrangeJ (x : R) (xi : Nat → R) (orderN i : Nat) (t : Inner R) (j : Nat) : Inner R :=
  let t := if j ≠ i then
      { t with n := t.n * (x - xi j), d := t.d * (xi i - xi j), p := t.p + lagrangeS x xi orderN i j }
    else t
  { t with c := t.n / t.d, q := t.p / t.d, finite := t.finite && (t.d != 0) }

/-- the loop over `j`; `q` comes from the previous node; elements.cc:2192-2217 -/
def lagrangeI (x : R) (xi : Nat → R) (orderN i : Nat) (q : R) (finite : Bool) : Inner R :=
  loop (orderN + 1) (lagrangeJ x xi orderN i) ⟨1, 1, 1, 0, q, finite⟩

/-- `lagrange_1D`, elements.cc:2180-2224 and 2443-2487: the new contents of `interp` and `Dinterp` -/
def lagrange1D (interp dinterp : Nat → R) (x : R) (xi : Nat → R) (orderN : Nat) :
    Outcome ((Nat → R) × (Nat → R)) :=
  let st := loop (orderN + 1) (fun (st : (Nat → R) × (Nat → R) × R × Bool) i =>
      let t := lagrangeI x xi orderN i st.2.2.1 st.2.2.2
      (Function.update st.1 i t.c, Function.update st.2.1 i t.q, t.q, t.finite))
    (interp, dinterp, 0, true)
  if st.2.2.2 then .ok (st.1, st.2.1) else .throws "NaN"

/-! ## QuadN -/

/-- the one-based indices, elements.cc:2344-2345; `floor(m/N)` is the floor of an integer quotient -/
def indices2 (N m : Int) : Int × Int :=
  let j := m.tdiv N + 1
  let i := (m + 1) - N * (j - 1)
  (i, j)

/-- the vectors `basis_partials` writes; `val1`, `dval1` are `val_1d`, `DVal_1d`; `val`, `dval`
are `val_2d`, `DVal_2d` (`val_3d`, `DVal_3d`); elements.cc:2292-2391, 2574-2693 -/
structure Work (R : Type) where
  nodes : Nat → Nat → R
  val1 : Nat → R
  dval1 : Nat → R
  val : Nat → Nat → R
  dval : Nat → Nat → R
  basis : Nat → R
  partials : Nat → Nat → R

/-- one evaluation in `QuadN::basis_partials`, elements.cc:2358-2366 and 2371-2379 (2647-2655, 2660-2668
and 2672-2679 in `HexN`): direction `d`, one-based index `i`, and the reset to zero of the 1D
vectors -/
def evalDirection (w : Work R) (nodes1d xi : Nat → R) (orderN m d : Nat) (i : Int) : Outcome (Work R) := do
  let (v, dv) ← lagrange1D w.val1 w.dval1 (xi d) nodes1d orderN
  let zero := loop (orderN + 1) (fun (s : Nat → R) i => Function.update s i 0)
  return { w with
    val := set2 w.val m d (v (i - 1).toNat), dval := set2 w.dval m d (dv (i - 1).toNat),
    val1 := zero v, dval1 := zero dv }

/-- the body of the loop in `QuadN::basis_partials`, elements.cc:2335-2390 -/
def quadNBody (nodes1d xi : Nat → R) (orderN : Nat) (w : Work R) (m : Nat) : Outcome (Work R) := do
  let N : Int := orderN + 1
  let (i, j) := indices2 N m
  let w := { w with nodes := set2 w.nodes m 0 (nodes1d (i - 1).toNat) }
  let w := { w with nodes := set2 w.nodes m 1 (nodes1d (j - 1).toNat) }
  let w ← evalDirection w nodes1d xi orderN m 0 i
  let w ← evalDirection w nodes1d xi orderN m 1 j
  let w := { w with basis := Function.update w.basis m (w.val m 0 * w.val m 1) }
  let w := { w with partials := set2 w.partials m 0 (w.dval m 0 * w.val m 1) }
  return { w with partials := set2 w.partials m 1 (w.val m 0 * w.dval m 1) }

/-- `QuadN::basis_partials`, elements.cc:2292-2391 -/
def quadNBasisPartials (w : Work R) (nodes1d xi : Nat → R) (orderN : Nat) : Outcome (Work R) :=
  loopM ((orderN + 1) * (orderN + 1)) (quadNBody nodes1d xi orderN) w

/-- `QuadN::physical_position`, elements.cc:2275-2290 -/
def quadNPosition (x : Nat → R) (lagNodes : Nat → Nat → R) (basis : Nat → R) (orderN : Nat) : Nat → R :=
  loop ((orderN + 1) * (orderN + 1)) (fun x v =>
    loop 1 (fun x dim => Function.update x dim (x dim + lagNodes v dim * basis v)) x) x

/-- `QuadN::corners`, elements.cc:2227-2271: the corner nodes, and the rest of `lag_corner` as it was -/
def quadNCorners (lagNodes lagCorner : Nat → Nat → R) (orderN : Nat) : Nat → Nat → R :=
  let N := orderN + 1
  let A := 0
  let B := N - 1
  let C := N * N - N
  let D := N * N - 1
  let c := Function.update lagCorner 0 (lagNodes A)
  let c := Function.update c 1 (lagNodes B)
  let c := Function.update c 2 (lagNodes C)
  Function.update c 3 (lagNodes D)

/-! ## HexN -/

/-- the one-based indices, elements.cc:2625-2632 -/
def indices3 (N m : Int) : Int × Int × Int :=
  let p12 := N * N
  let k := m.tdiv p12 + 1
  let jj := (m + 1) - p12 * (k - 1)
  let j := (jj - 1).tdiv N + 1
  let i := jj - N * (j - 1)
  (i, j, k)

/-- the body of the loop in `HexN::basis_partials`, elements.cc:2617-2692 -/
def hexNBody (nodes1d xi : Nat → R) (orderN : Nat) (w : Work R) (m : Nat) : Outcome (Work R) := do
  let N : Int := orderN + 1
  let (i, j, k) := indices3 N m
  let w := { w with nodes := set2 w.nodes m 0 (nodes1d (i - 1).toNat) }
  let w := { w with nodes := set2 w.nodes m 1 (nodes1d (j - 1).toNat) }
  let w := { w with nodes := set2 w.nodes m 2 (nodes1d (k - 1).toNat) }
  let w ← evalDirection w nodes1d xi orderN m 0 i
  let w ← evalDirection w nodes1d xi orderN m 1 j
  let w ← evalDirection w nodes1d xi orderN m 2 k
  let w := { w with basis := Function.update w.basis m (w.val m 0 * w.val m 1 * w.val m 2) }
  let w := { w with partials := set2 w.partials m 0 (w.dval m 0 * w.val m 1 * w.val m 2) }
  let w := { w with partials := set2 w.partials m 1 (w.val m 0 * w.dval m 1 * w.val m 2) }
  return { w with partials := set2 w.partials m 2 (w.val m 0 * w.val m 1 * w.dval m 2) }

/-- `HexN::basis_partials`, elements.cc:2574-2693 -/
def hexNBasisPartials (w : Work R) (nodes1d xi : Nat → R) (orderN : Nat) : Outcome (Work R) :=
  loopM ((orderN + 1) * (orderN + 1) * (orderN + 1)) (hexNBody nodes1d xi orderN) w

/-- `HexN::physical_position`, elements.cc:2557-2572 -/
def hexNPosition (x : Nat → R) (lagNodes : Nat → Nat → R) (basis : Nat → R) (orderN : Nat) : Nat → R :=
  loop ((orderN + 1) * (orderN + 1) * (orderN + 1)) (fun x v =>
    loop 2 (fun x dim => Function.update x dim (x dim + lagNodes v dim * basis v)) x) x

/-- `HexN::corners`, elements.cc:2490-2553 -/
def hexNCorners (lagNodes lagCorner : Nat → Nat → R) (orderN : Nat) : Nat → Nat → R :=
  let N := orderN + 1
  let A := 0
  let B := N - 1
  let C := N * N - N
  let D := N * N - 1
  let E := N * N * N - N * N
  let F := N * N * N - N * N + N - 1
  let G := N * N * N - N
  let H := N * N * N - 1
  let c := Function.update lagCorner 0 (lagNodes A)
  let c := Function.update c 1 (lagNodes B)
  let c := Function.update c 2 (lagNodes C)
  let c := Function.update c 3 (lagNodes D)
  let c := Function.update c 4 (lagNodes E)
  let c := Function.update c 5 (lagNodes F)
  let c := Function.update c 6 (lagNodes G)
  Function.update c 7 (lagNodes H)

end

/-! ## Chebyshev nodes -/

/-- the literal in elements.cc:2166 and 2429 -/
noncomputable def piLit : ℝ := 3.14159265358979323846

/-- `chebyshev_nodes_1D`, elements.cc:2162-2176 and 2425-2439 -/
noncomputable def chebyshevNodes1D (nodes : Nat → ℝ) (order : Nat) : Nat → ℝ :=
  let nodes := loop order (fun a k =>
    -- `i` runs from 1, `k` from 0
    let i := k + 1
    Function.update a (i - 1) (-Real.cos (piLit * (2.0 * i - 1.0) / (2.0 * (order + 1.0))))) nodes
  let nodes := Function.update nodes 0 (-1.0)
  Function.update nodes order 1.0

end Verif.Lagrange
