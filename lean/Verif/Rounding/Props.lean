import Mathlib.Data.Nat.Factorial.Basic
import Mathlib.Data.Nat.Factorial.BigOperators
import Verif.Rounding.Basic
import Verif.Vec.Model
import Verif.Mat.Model
import Verif.Mat.Lemmas
import Verif.Geometry.Model

/-!
# C86: results in floating point

How far the results computed with rounding operations are from the exact ones, for any number of
elements.  The definitions are those of the exact models, used with scalars that round.
-/

namespace Verif.Rounding
open Verif Verif.Vec Verif.Mat Verif.Geometry

variable {R : Rounding}

/-- the exact values of an array -/
def vals (a : Fin n → Fl R) : Fin n → ℝ := fun i => (a i).val

theorem near_prod (a b : Fl R) : Near R 1 (a * b).val (a.val * b.val) (|a.val| * |b.val|) := (Near.val a).mul (Near.val b)

theorem near_diff (a b : Fl R) : Near R 1 (a - b).val (a.val - b.val) |a.val - b.val| :=
  (Near.exact R (a.val - b.val)).rnd

theorem near_zero : Near R 0 (0 : Fl R).val 0 0 := ⟨by simp [Fl.val_zero], by simp⟩

/-! ## Bounds -/

/-- **C86** (size of the bounds).  The factor `(1+u)^k - 1` of the theorems below is at most
`k u / (1 - k u)`: for `double` about `k · 1.1 · 10⁻¹⁶`. -/
theorem C86_gamma (R : Rounding) (k : ℕ) (hk : k * R.u < 1) : (1 + R.u) ^ k - 1 ≤ k * R.u / (1 - k * R.u) := by
  have hpos : 0 < 1 - k * R.u := by linarith
  have key : ∀ k : ℕ, k * R.u < 1 → (1 + R.u) ^ k * (1 - k * R.u) ≤ 1 := by
    intro k
    induction k with
    | zero => intro _; simp
    | succ k ih =>
      intro h
      have hu := R.u_nonneg
      have h' : (k : ℝ) * R.u < 1 := by push_cast at h; nlinarith
      have h1 : (1 + R.u) * (1 - (k + 1 : ℕ) * R.u) ≤ 1 - k * R.u := by
        push_cast
        have : 0 ≤ R.u * ((k + 1) * R.u) := by positivity
        nlinarith
      calc _ = (1 + R.u) ^ k * ((1 + R.u) * (1 - (k + 1 : ℕ) * R.u)) := by rw [pow_succ]; ring
        _ ≤ (1 + R.u) ^ k * (1 - k * R.u) :=
          mul_le_mul_of_nonneg_left h1 (by linarith [one_le_pow R k])
        _ ≤ 1 := ih h'
  rw [le_div_iff₀ hpos]
  linarith [key k hk]

example : (1000000 : ℕ) * (binary 53).u < 1 := by
  have : (binary 53).u = (2 : ℝ) ^ (-(53 : ℤ)) := rfl
  rw [this, zpow_neg]
  norm_num

/-! ## Vectors -/

/-- **C86** (dot product).  For any length, the error is at most `(1+u)^(n+1) - 1` times the
sum of the absolute products; and exchanging the operands does not change the result at all. -/
theorem C86_dot (a b : Vec.Vec n (Fl R)) :
    |(dot a b).val - ∑ i, (a i).val * (b i).val| ≤ ((1 + R.u) ^ (n + 1) - 1) * ∑ i, |(a i).val| * |(b i).val| ∧
    dot a b = dot b a := by
  constructor
  · have := (Near.sum (fun i => a i * b i) _ _ (fun i => near_prod (a i) (b i)) (0 : Fl R) 0 0 near_zero).1
    rw [zero_add, zero_add, show max 1 0 + n = n + 1 by simp; omega] at this
    exact this
  · simp only [dot, Fl.mul_comm]

/-- **C86** (dot product of ranges), likewise; a second range that is too short is undefined. -/
theorem C86_dot_range (a b : List (Fl R)) (h : a.length ≤ b.length) :
    ∃ r, dotRange 0 a b = .ok r ∧
      |r.val - ((a.zip b).map fun p => p.1.val * p.2.val).sum| ≤
        ((1 + R.u) ^ (a.length + 1) - 1) * ((a.zip b).map fun p => |p.1.val| * |p.2.val|).sum := by
  have key : ∀ (a b : List (Fl R)) (s : Fl R) (s' S : ℝ) (k : ℕ), a.length ≤ b.length → 1 ≤ k → Near R k s.val s' S →
      ∃ r, dotRange s a b = .ok r ∧ Near R (k + a.length) r.val (s' + ((a.zip b).map fun p => p.1.val * p.2.val).sum)
        (S + ((a.zip b).map fun p => |p.1.val| * |p.2.val|).sum) := by
    intro a
    induction a with
    | nil => intro b s s' S k _ _ hs; exact ⟨s, rfl, by simpa using hs⟩
    | cons x a ih =>
      intro b s s' S k h hk hs
      cases b with
      | nil => simp at h
      | cons y b =>
        obtain ⟨r, e, hr⟩ := ih b (s + x * y) (s' + x.val * y.val) (S + |x.val| * |y.val|) (k + 1) (by simpa using h)
          (by omega) ((hs.add (near_prod x y)).mono (by omega) (le_refl _))
        refine ⟨r, e, ?_⟩
        simp only [List.zip_cons_cons, List.map_cons, List.sum_cons, List.length_cons]
        rw [← add_assoc s']
        exact hr.mono (by omega) (le_of_eq (add_assoc _ _ _))
  obtain ⟨r, e, hr⟩ := key a b 0 0 0 1 h (le_refl 1) (near_zero.mono (by omega) (le_refl 0))
  refine ⟨r, e, ?_⟩
  have := hr.1
  rwa [zero_add, zero_add, show 1 + a.length = a.length + 1 from Nat.add_comm _ _] at this

example (x y z : Fl (binary 53)) : ∃ r, dotRange 0 [x, y] [y, z, z] = .ok r := by
  obtain ⟨r, h, -⟩ := C86_dot_range [x, y] [y, z, z] (by simp)
  exact ⟨r, h⟩

/-- **C86** (averages).  The average of `n` numbers is within `(1+u)^(n+1) - 1` times the average
of their absolute values of the exact average, if the number of elements can be represented. -/
theorem C86_average (xs : List (Fl R)) (h0 : 0 < xs.length) (hn : R.rnd xs.length = xs.length) :
    ∃ r, averageContainer xs = .ok r ∧
      |r.val - (xs.map Fl.val).sum / xs.length| ≤
        ((1 + R.u) ^ (xs.length + 1) - 1) * ((xs.map fun x => |x.val|).sum / xs.length) := by
  refine ⟨xs.foldl (· + ·) 0 / (xs.length : Fl R), by simp [averageContainer, h0], ?_⟩
  have := ((Near.sumList (k := 0) xs 0 0 0 near_zero (le_refl 0)).divConst (c := (xs.length : Fl R))).1
  rw [Fl.val_natCast, hn] at this
  simpa using this

/-- three numbers of double precision -/
example (x y z : Fl (binary 53)) (h : (binary 53).rnd 3 = 3) : ∃ r, averageContainer [x, y, z] = .ok r ∧
    |r.val - (x.val + (y.val + (z.val + 0))) / 3| ≤ ((1 + (binary 53).u) ^ 4 - 1) * ((|x.val| + (|y.val| + (|z.val| + 0))) / 3) := by
  simpa using C86_average [x, y, z] (by simp) (by simpa using h)

/-- `std::sqrt`, correctly rounded -/
noncomputable def Fl.sqrt (a : Fl R) : Fl R := ⟨R.rnd (Real.sqrt a.val)⟩

/-- `magnitude`, general.h:196-220, with a given square root -/
def magnitudeWith [Zero K] [Add K] [Mul K] (sqrt : K → K) (a : Vec.Vec n K) : K :=
  sqrt (forLoop n (fun i s => s + a i * a i) 0)

/-- `delta_magnitude`, general.h:246-259 -/
def deltaMagnitudeWith [Zero K] [Add K] [Sub K] [Mul K] (sqrt : K → K) (a b : Vec.Vec n K) : K :=
  sqrt (forLoop n (fun i s => let del := a i - b i; s + del * del) 0)

/-- they are the functions of the exact model -/
theorem magnitudeWith_exact (a b : Vec.Vec n ℝ) :
    magnitudeWith Real.sqrt a = magnitude a ∧ deltaMagnitudeWith Real.sqrt a b = deltaMagnitude a b := ⟨rfl, rfl⟩

/-- **C86** (lengths).  The length of a vector, and the distance of two points, have a small
*relative* error, whatever cancellation there is between the points: at most `(1+u)^(n+2) - 1`
and `(1+u)^(n+4) - 1`. -/
theorem C86_magnitude (a b : Vec.Vec n (Fl R)) :
    |(magnitudeWith Fl.sqrt a).val - Real.sqrt (∑ i, (a i).val ^ 2)| ≤
      ((1 + R.u) ^ (n + 2) - 1) * Real.sqrt (∑ i, (a i).val ^ 2) ∧
    |(deltaMagnitudeWith Fl.sqrt a b).val - Real.sqrt (∑ i, ((a i).val - (b i).val) ^ 2)| ≤
      ((1 + R.u) ^ (n + 4) - 1) * Real.sqrt (∑ i, ((a i).val - (b i).val) ^ 2) := by
  have sq : ∀ x : ℝ, |x| * |x| = x ^ 2 := fun x => by rw [abs_mul_abs_self, sq]
  constructor
  · have h := Near.sum (fun i => a i * a i) (fun i => (a i).val ^ 2) (fun i => (a i).val ^ 2)
      (fun i => by have := near_prod (a i) (a i); rwa [sq, ← pow_two] at this) (0 : Fl R) 0 0 near_zero
    rw [zero_add] at h
    have := (h.sqrt.rnd).1
    rw [show max 1 0 + n + 1 = n + 2 by simp; omega] at this
    exact this
  · have h := Near.sum (fun i => (a i - b i) * (a i - b i)) (fun i => ((a i).val - (b i).val) ^ 2)
      (fun i => ((a i).val - (b i).val) ^ 2)
      (fun i => by have := (near_diff (a i) (b i)).mul (near_diff (a i) (b i)); rwa [sq, ← pow_two] at this)
      (0 : Fl R) 0 0 near_zero
    rw [zero_add] at h
    have := (h.sqrt.rnd).1
    rw [show max (1 + 1 + 1) 0 + n + 1 = n + 4 by simp; omega] at this
    exact this

/-- **C86** (cross products) -/
theorem C86_cross (a b : Vec.Vec 2 (Fl R)) (c d : Vec.Vec 3 (Fl R)) :
    |(cross2 a b).val - cross2 (vals a) (vals b)| ≤
      ((1 + R.u) ^ 2 - 1) * (|(a 0).val| * |(b 1).val| + |(a 1).val| * |(b 0).val|) ∧
    (∀ i : Fin 3, |(cross3 c d i).val - cross3 (vals c) (vals d) i| ≤
      ((1 + R.u) ^ 2 - 1) *
        (|(c (i + 1)).val| * |(d (i + 2)).val| + |(c (i + 2)).val| * |(d (i + 1)).val|)) := by
  refine ⟨((near_prod (a 0) (b 1)).sub (near_prod (a 1) (b 0))).1, fun i => ?_⟩
  fin_cases i
  · exact ((near_prod (c 1) (d 2)).sub (near_prod (c 2) (d 1))).1
  · exact ((near_prod (c 2) (d 0)).sub (near_prod (c 0) (d 2))).1
  · exact ((near_prod (c 0) (d 1)).sub (near_prod (c 1) (d 0))).1

theorem near_prod3 (a b c : Fl R) :
    Near R 2 (a * b * c).val (a.val * b.val * c.val) (|a.val| * |b.val| * |c.val|) :=
  ((near_prod a b).mul (Near.val c)).mono (by omega) (le_refl _)

/-- **C86** (triple product) -/
theorem C86_triple (a b c : Vec.Vec 3 (Fl R)) :
    |(triple a b c).val - triple (vals a) (vals b) (vals c)| ≤ ((1 + R.u) ^ 7 - 1) *
      (|(a 0).val| * |(b 1).val| * |(c 2).val| + |(b 0).val| * |(c 1).val| * |(a 2).val|
        + |(c 0).val| * |(a 1).val| * |(b 2).val| + |(a 2).val| * |(b 1).val| * |(c 0).val|
        + |(b 2).val| * |(c 1).val| * |(a 0).val| + |(c 2).val| * |(a 1).val| * |(b 0).val|) :=
  ((((((near_prod3 (a 0) (b 1) (c 2)).add (near_prod3 (b 0) (c 1) (a 2))).add (near_prod3 (c 0) (a 1) (b 2))).sub
    (near_prod3 (a 2) (b 1) (c 0))).sub (near_prod3 (b 2) (c 1) (a 0))).sub (near_prod3 (c 2) (a 1) (b 0))).1

/-! ## Matrices -/

/-- a row of the accumulating loops -/
theorem near_row (A : Fin n → Fl R) (x : Fin n → Fl R) (s : Fl R) (s' S : ℝ) {l : ℕ} (hs : Near R l s.val s' S) :
    Near R (max 1 l + n) (forLoop n (fun j s => s + A j * x j) s).val (s' + ∑ j, (A j).val * (x j).val)
      (S + ∑ j, |(A j).val| * |(x j).val|) :=
  Near.sum (fun j => A j * x j) _ _ (fun j => near_prod (A j) (x j)) s s' S hs

/-- the inner loop writes one element only -/
theorem inner_upd (f : Fin n → K → K) (i : Fin m) (y : Fin m → K) :
    forLoop n (fun j y => upd y i (f j (y i))) y = upd y i (forLoop n f (y i)) := by
  induction n with
  | zero => funext k; by_cases h : k = i <;> simp [upd, h]
  | succ n ih =>
    rw [forLoop_succ, forLoop_succ, ih fun j => f j.castSucc]
    funext k
    by_cases h : k = i <;> simp [upd, h]

/-- **C86** (matrix times vector).  Both forms, component by component. -/
theorem C86_matrix_vector (A : Mat m n (Fl R)) (x : Mat.Vec n (Fl R)) (y tmp : Mat.Vec m (Fl R)) (i : Fin m) :
    |(mulVec tmp A x i).val - ∑ j, (A i j).val * (x j).val| ≤
      ((1 + R.u) ^ (n + 1) - 1) * ∑ j, |(A i j).val| * |(x j).val| ∧
    |(axPlusY A x y i).val - ((y i).val + ∑ j, (A i j).val * (x j).val)| ≤
      ((1 + R.u) ^ (n + 1) - 1) * (|(y i).val| + ∑ j, |(A i j).val| * |(x j).val|) := by
  constructor
  · have e : mulVec tmp A x = fun i => forLoop n (fun j s => s + A i j * x j) 0 := by
      have h : ∀ i (t : Mat.Vec m (Fl R)), forLoop n (fun j tmp => upd tmp i (tmp i + A i j * x j)) (upd t i 0)
          = upd t i (forLoop n (fun j s => s + A i j * x j) 0) := by
        intro i t
        have := inner_upd (fun j s => s + A i j * x j) i (upd t i (0 : Fl R))
        rw [upd_same] at this
        rw [this]
        funext k
        by_cases h : k = i <;> simp [upd, h]
      simp only [mulVec, h]
      have := forLoop_upd_each (fun i (_ : Fl R) => forLoop n (fun j s => s + A i j * x j) 0) tmp
      simpa using this
    rw [e]
    have := (near_row (A i) x 0 0 0 near_zero).1
    rw [zero_add, zero_add, show max 1 0 + n = n + 1 by simp; omega] at this
    exact this
  · have e : axPlusY A x y = fun i => forLoop n (fun j s => s + A i j * x j) (y i) := by
      simp only [axPlusY]
      have h : ∀ i (t : Mat.Vec m (Fl R)), forLoop n (fun j y => upd y i (y i + A i j * x j)) t
          = upd t i (forLoop n (fun j s => s + A i j * x j) (t i)) := fun i t => inner_upd (fun j s => s + A i j * x j) i t
      simp only [h]
      exact forLoop_upd_each (fun i s => forLoop n (fun j s => s + A i j * x j) s) y
    rw [e]
    have := (near_row (A i) x (y i) _ _ (Near.val (y i))).1
    rw [show max 1 0 + n = n + 1 by simp; omega] at this
    exact this

/-- a loop over all elements, each of which is a function of its old value -/
theorem forEach_eq (f : Fin m → Fin n → K → K) (M : Mat m n K) :
    forLoop m (fun i M => forLoop n (fun j M => mset M i j (f i j (M i j))) M) M = fun i j => f i j (M i j) := by
  have hrow : ∀ (i : Fin m) (M : Mat m n K), forLoop n (fun j M => mset M i j (f i j (M i j))) M
      = upd M i (fun j => f i j (M i j)) := by
    intro i M
    have := forLoop_inv (body := fun j (N : Mat m n K) => mset N i j (f i j (N i j))) (s := M)
      (fun k N => ∀ (i' : Fin m) (j : Fin n), N i' j = if i' = i ∧ j.1 < k then f i j (M i j) else M i' j)
      (fun i' j => by simp)
      (fun j N h i' j' => by
        by_cases hi : i' = i
        · subst hi
          by_cases hj : j' = j
          · subst hj
            simp [mset, h]
          · have : j'.1 ≠ j.1 := fun e => hj (Fin.ext e)
            have e : mset N i' j (f i' j (N i' j)) i' j' = N i' j' := by simp [mset, hj]
            rw [e, h]
            by_cases hlt : j'.1 < j.1
            · rw [if_pos ⟨rfl, hlt⟩, if_pos ⟨rfl, by omega⟩]
            · rw [if_neg (fun h => hlt h.2), if_neg (fun h => hlt (by omega))]
        · have e : mset N i j (f i j (N i j)) i' j' = N i' j' := by simp [mset, hi]
          rw [e, h, if_neg (fun h => hi h.1), if_neg (fun h => hi h.1)])
    funext i' j
    rw [this i' j]
    by_cases hi : i' = i
    · subst hi; simp [upd]
    · simp [upd, hi]
  simp only [hrow]
  exact forLoop_upd_each (fun i (r : Fin n → K) j => f i j (r j)) M

/-- **C86** (matrix times matrix), entry by entry -/
theorem C86_matrix_multiply (A : Mat m n (Fl R)) (B : Mat n p (Fl R)) (i : Fin m) (j : Fin p) :
    |(matMul A B i j).val - ∑ k, (A i k).val * (B k j).val| ≤
      ((1 + R.u) ^ (n + 2) - 1) * ∑ k, |(A i k).val| * |(B k j).val| := by
  have e : matMul A B = fun i j => (0 : Fl R) + forLoop n (fun k s => s + A i k * B k j) 0 :=
    forEach_eq (fun i j (c : Fl R) => c + forLoop n (fun k s => s + A i k * B k j) 0) _
  rw [e]
  have := (near_zero.add (near_row (A i) (fun k => B k j) 0 0 0 near_zero)).1
  simp only [zero_add] at this
  rw [show max 0 (max 1 0 + n) + 1 = n + 2 by simp; omega] at this
  exact this

/-- **C86** (trace and double dot product) -/
theorem C86_trace (M : Mat n n (Fl R)) (A B : Mat m n (Fl R)) :
    |(traceMatrix M).val - ∑ i, (M i i).val| ≤ ((1 + R.u) ^ n - 1) * ∑ i, |(M i i).val| ∧
    |(doubledot A B).val - ∑ i, ∑ j, (A i j).val * (B i j).val| ≤
      ((1 + R.u) ^ (m * n + 1) - 1) * ∑ i, ∑ j, |(A i j).val| * |(B i j).val| := by
  constructor
  · have := (Near.sum (fun i => M i i) _ _ (fun i => Near.val (M i i)) (0 : Fl R) 0 0 near_zero).1
    rw [zero_add, zero_add, show max 0 0 + n = n by simp] at this
    exact this
  · have key : ∀ m (A B : Mat m n (Fl R)), Near R (m * n + 1) (doubledot A B).val (∑ i, ∑ j, (A i j).val * (B i j).val)
        (∑ i, ∑ j, |(A i j).val| * |(B i j).val|) := by
      intro m
      induction m with
      | zero => intro A B; simpa [doubledot] using near_zero.mono (by omega) (le_refl 0)
      | succ m ih =>
        intro A B
        have h := ih (fun i => A i.castSucc) (fun i => B i.castSucc)
        have := near_row (A (Fin.last m)) (B (Fin.last m)) _ _ _ h
        rw [Fin.sum_univ_castSucc, Fin.sum_univ_castSucc]
        rw [doubledot, forLoop_succ]
        refine this.mono ?_ (le_refl _)
        have : (m + 1) * n = m * n + n := by ring
        omega
    exact (key m A B).1

/-- number of roundings in the expansion of a determinant of size `N+1` -/
def detOps : ℕ → ℕ
  | 0 => 0
  | N + 1 => detOps N + N + 4

theorem detOps_eq (N : ℕ) : 2 * detOps N = N * (N + 7) := by
  induction N with
  | zero => rfl
  | succ N ih => simp only [detOps]; linarith

theorem near_sign (i : ℕ) : Near R 0 ((if i % 2 = 1 then -1 else 1 : Fl R)).val (if i % 2 = 1 then -1 else 1) 1 := by
  split
  · exact ⟨by simp [Fl.val_neg, Fl.val_one], by simp⟩
  · exact ⟨by simp [Fl.val_one], by simp⟩

/-- **C86** (determinants).  For any size `N+1` and entries up to `M` the determinant is computed
(no assertion fails), with an error of at most `(N+1)! M^(N+1)` times `(1+u)^(N(N+7)/2) - 1`. -/
theorem C86_determinant (N : ℕ) (A : Mat (N + 1) (N + 1) (Fl R)) (M : ℝ) (hM : ∀ i j, |(A i j).val| ≤ M) :
    ∃ r, determinant N A = .ok r ∧
      |r.val - (Matrix.of fun i j => (A i j).val).det| ≤
        ((1 + R.u) ^ (N * (N + 7) / 2) - 1) * ((N + 1).factorial * M ^ (N + 1)) := by
  have hM0 : 0 ≤ M := le_trans (abs_nonneg _) (hM 0 0)
  have key : ∀ (N : ℕ) (A : Mat (N + 1) (N + 1) (Fl R)), (∀ i j, |(A i j).val| ≤ M) →
      ∃ r, determinant N A = .ok r ∧
        Near R (detOps N) r.val (Matrix.of fun i j => (A i j).val).det ((N + 1).factorial * M ^ (N + 1)) := by
    intro N
    induction N with
    | zero =>
      intro A hA
      refine ⟨A 0 0, rfl, ?_⟩
      rw [Matrix.det_fin_one]
      exact (Near.val (A 0 0)).mono (le_refl 0) (by simpa using hA 0 0)
    | succ N ih =>
      intro A hA
      choose d hd hn using fun i : Fin (N + 2) => ih (fun a b => A (Fin.succ a) (i.succAbove b)) fun a b => hA _ _
      have e : determinant (N + 1) A
          = .ok (forLoop (N + 2) (fun i s => s + (if i.1 % 2 = 1 then -1 else 1) * A 0 i * d i) 0) := by
        rw [determinant]
        refine forLoop_ok _ (fun i s => s + (if i.1 % 2 = 1 then -1 else 1) * A 0 i * d i) ?_ 0
        intro i s
        have hc := cofactor_ok (fun _ _ => 0) A 0 i
        simp only [Fin.val_zero] at hc
        simp only [Outcome.bind_ok, hc, Fin.succAbove_zero, hd i]
      refine ⟨_, e, ?_⟩
      have hs := Near.sum (fun i : Fin (N + 2) => (if i.1 % 2 = 1 then -1 else 1) * A 0 i * d i)
        (fun i => (if i.1 % 2 = 1 then -1 else 1) * (A 0 i).val * (Matrix.of fun a b => (A (Fin.succ a) (i.succAbove b)).val).det)
        (fun _ => 1 * M * ((N + 1).factorial * M ^ (N + 1)))
        (fun i => ((near_sign i.1).mul ((Near.val (A 0 i)).mono (le_refl 0) (hA 0 i))).mul (hn i))
        (0 : Fl R) 0 0 near_zero
      simp only [zero_add] at hs
      have hdet : (Matrix.of fun i j => (A i j).val).det = ∑ i : Fin (N + 2), (if i.1 % 2 = 1 then -1 else 1) * (A 0 i).val *
          (Matrix.of fun a b => (A (Fin.succ a) (i.succAbove b)).val).det := by
        rw [Matrix.det_succ_row_zero]
        refine Finset.sum_congr rfl fun i _ => ?_
        rw [sign_eq]
        rfl
      rw [hdet]
      refine hs.mono (l := detOps (N + 1)) (by rw [detOps]; omega) (le_of_eq ?_)
      rw [Finset.sum_const, Finset.card_univ, Fintype.card_fin, Nat.factorial_succ (N + 1)]
      simp only [nsmul_eq_mul]
      push_cast
      ring
  obtain ⟨r, e, h⟩ := key N A hM
  refine ⟨r, e, ?_⟩
  have : N * (N + 7) / 2 = detOps N := by have := detOps_eq N; omega
  rw [this]
  exact h.1

/-- a 2×2 matrix with entries up to 3 -/
example : ∃ A : Mat 2 2 (Fl (binary 53)), (∀ i j, |(A i j).val| ≤ 3) ∧ (A 0 0).val ≠ (A 1 1).val :=
  ⟨fun i j => ⟨if i = 0 then 3 else -1⟩, fun i j => by by_cases h : i = 0 <;> simp [h], by norm_num⟩

/-! ## Geometry -/

/-- **C86** (triangles).  The signed area is computed from differences of coordinates: its error
is relative to the products of the edge components, wherever the triangle lies. -/
theorem C86_triangle (p0 p1 p2 : Vec.Vec 2 (Fl R)) :
    |(triCross2 p0 p1 p2).val - triCross2 (vals p0) (vals p1) (vals p2)| ≤ ((1 + R.u) ^ 4 - 1) *
      (|(p1 0).val - (p0 0).val| * |(p2 1).val - (p0 1).val| + |(p1 1).val - (p0 1).val| * |(p2 0).val - (p0 0).val|) :=
  (((near_diff (p1 0) (p0 0)).mul (near_diff (p2 1) (p0 1))).sub ((near_diff (p1 1) (p0 1)).mul (near_diff (p2 0) (p0 0)))).1

/-- the scale of the shoelace sum: products of absolute coordinates of neighbours -/
def shoelaceScale : List (Vec.Vec 2 ℝ) → ℝ
  | v1 :: v2 :: args => |v1 0| * |v2 1| + |v2 0| * |v1 1| + shoelaceScale (v2 :: args)
  | _ => 0

/-- **C86** (polygons).  The signed area of a polygon with any number of corners: the error is
relative to products of *coordinates*, so it grows with the distance from the origin.  What is missing
is a bound relative to the size of the polygon, as for triangles: there is none (`C86_polygon_fails`). -/
theorem C86_polygon_partial (pts : List (Vec.Vec 2 (Fl R))) :
    |(areaRec 0 pts).val - areaRec 0 (pts.map vals)| ≤
      ((1 + R.u) ^ (pts.length + 2) - 1) * shoelaceScale (pts.map vals) := by
  have key : ∀ (pts : List (Vec.Vec 2 (Fl R))) (k : ℕ) (s : Fl R) (s' S : ℝ), 2 ≤ k → Near R k s.val s' S →
      Near R (k + pts.length) (areaRec s pts).val (areaRec s' (pts.map vals)) (S + shoelaceScale (pts.map vals)) := by
    intro pts
    induction pts with
    | nil => intro k s s' S _ h; simpa [areaRec, shoelaceScale] using h
    | cons v1 rest ih =>
      cases rest with
      | nil => intro k s s' S _ h; simpa [areaRec, shoelaceScale] using h.mono (by omega) (le_refl _)
      | cons v2 args =>
        intro k s s' S hk h
        have := ih (k + 1) _ _ _ (by omega) ((h.add ((near_prod (v1 0) (v2 1)).sub (near_prod (v2 0) (v1 1)))).mono
          (l := k + 1) (by simp; omega) (le_refl _))
        simp only [List.map_cons, areaRec, shoelaceScale, List.length_cons] at this ⊢
        exact this.mono (by omega) (le_of_eq (by simp only [vals]; ring))
  have := (key pts 2 0 0 0 (le_refl 2) (near_zero.mono (by omega) (le_refl 0))).1
  rw [zero_add, add_comm 2] at this
  exact this

/-- **C86** (tetrahedra).  The determinant behind the volume is expanded in the coordinates
themselves: with coordinates up to `M` the absolute error is at most `24 ((1+u)^25 - 1) M³`, whatever
the size of the tetrahedron.  What is missing is a bound relative to the size of the tetrahedron: there
is none (`C86_tetrahedron_fails`). -/
theorem C86_tetrahedron_partial (p0 p1 p2 p3 : Vec.Vec 3 (Fl R)) (M : ℝ)
    (h0 : ∀ i, |(p0 i).val| ≤ M) (h1 : ∀ i, |(p1 i).val| ≤ M) (h2 : ∀ i, |(p2 i).val| ≤ M) (h3 : ∀ i, |(p3 i).val| ≤ M) :
    |(tetDet p0 p1 p2 p3).val - tetDet (vals p0) (vals p1) (vals p2) (vals p3)| ≤
      ((1 + R.u) ^ 25 - 1) * (24 * M ^ 3) := by
  have hM : 0 ≤ M := le_trans (abs_nonneg _) (h0 0)
  have t : ∀ a b c : Fl R, |a.val| ≤ M → |b.val| ≤ M → |c.val| ≤ M →
      Near R 2 (a * b * c).val (a.val * b.val * c.val) (M ^ 3) := by
    intro a b c ha hb hc
    refine (near_prod3 a b c).mono (le_refl 2) ?_
    calc _ ≤ M * M * M := mul_le_mul (mul_le_mul ha hb (abs_nonneg _) hM) hc (abs_nonneg _) (mul_nonneg hM hM)
      _ = M ^ 3 := by ring
  have h :=
    (((((((((((((((((((((((t _ _ _ (h3 0) (h2 1) (h1 2)).sub (t _ _ _ (h2 0) (h3 1) (h1 2))).sub
      (t _ _ _ (h3 0) (h1 1) (h2 2))).add (t _ _ _ (h1 0) (h3 1) (h2 2))).add
      (t _ _ _ (h2 0) (h1 1) (h3 2))).sub (t _ _ _ (h1 0) (h2 1) (h3 2))).sub
      (t _ _ _ (h3 0) (h2 1) (h0 2))).add (t _ _ _ (h2 0) (h3 1) (h0 2))).add
      (t _ _ _ (h3 0) (h0 1) (h2 2))).sub (t _ _ _ (h0 0) (h3 1) (h2 2))).sub
      (t _ _ _ (h2 0) (h0 1) (h3 2))).add (t _ _ _ (h0 0) (h2 1) (h3 2))).add
      (t _ _ _ (h3 0) (h1 1) (h0 2))).sub (t _ _ _ (h1 0) (h3 1) (h0 2))).sub
      (t _ _ _ (h3 0) (h0 1) (h1 2))).add (t _ _ _ (h0 0) (h3 1) (h1 2))).add
      (t _ _ _ (h1 0) (h0 1) (h3 2))).sub (t _ _ _ (h0 0) (h1 1) (h3 2))).sub
      (t _ _ _ (h2 0) (h1 1) (h0 2))).add (t _ _ _ (h1 0) (h2 1) (h0 2))).add
      (t _ _ _ (h2 0) (h0 1) (h1 2))).sub (t _ _ _ (h0 0) (h2 1) (h1 2))).sub
      (t _ _ _ (h1 0) (h0 1) (h2 2))).add (t _ _ _ (h0 0) (h1 1) (h2 2))
  exact (h.mono (l := 25) (by simp) (le_of_eq (by ring))).1

/-- inside the unit cube, any rounding -/
example (p0 p1 p2 p3 : Vec.Vec 3 (Fl R)) (h0 : ∀ i, |(p0 i).val| ≤ 1) (h1 : ∀ i, |(p1 i).val| ≤ 1)
    (h2 : ∀ i, |(p2 i).val| ≤ 1) (h3 : ∀ i, |(p3 i).val| ≤ 1) :
    |(tetDet p0 p1 p2 p3).val - tetDet (vals p0) (vals p1) (vals p2) (vals p3)| ≤ ((1 + R.u) ^ 25 - 1) * 24 := by
  have := C86_tetrahedron_partial p0 p1 p2 p3 1 h0 h1 h2 h3
  simpa using this

end Verif.Rounding
