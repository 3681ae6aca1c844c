import Verif.Mat.Model
import Mathlib.LinearAlgebra.Matrix.Determinant.Basic
import Mathlib.LinearAlgebra.Matrix.Adjugate
import Mathlib.LinearAlgebra.Matrix.NonsingularInverse
import Mathlib.Algebra.BigOperators.Fin
import Mathlib.Tactic.Ring
import Mathlib.Tactic.FinCases

/-! Helper lemmas for the matrix model. -/

namespace Verif

theorem forLoop_sum {K : Type u} [AddCommMonoid K] {n : Nat} (f : Fin n → K) (s : K) :
    forLoop n (fun i s => s + f i) s = s + ∑ i, f i := by
  induction n with
  | zero => simp
  | succ n ih => rw [forLoop_succ, ih (fun i => f i.castSucc), Fin.sum_univ_castSucc, add_assoc]

/-- a loop in a failing context all of whose steps succeed -/
theorem forLoop_ok {n : Nat} {σ : Type u} (body : Fin n → Outcome σ → Outcome σ) (g : Fin n → σ → σ)
    (h : ∀ i s, body i (.ok s) = .ok (g i s)) (s : σ) :
    forLoop n body (.ok s) = .ok (forLoop n g s) :=
  forLoop_rel (b1 := body) (b2 := g) (fun (o : Outcome σ) (s : σ) => o = Outcome.ok s) rfl
    (fun i o s e => by subst e; exact h i s)

/-- a loop that only touches row `i` -/
theorem forLoop_row {m n : Nat} {α : Type u} (i : Fin m) (h : Fin n → α → α) (y : Fin m → α) :
    forLoop n (fun j y => upd y i (h j (y i))) y = upd y i (forLoop n h (y i)) := by
  have := forLoop_rel (b1 := fun j y => upd y i (h j (y i))) (b2 := h) (s := y) (t := y i)
    (fun z t => z = upd y i t) (by funext k; by_cases hk : k = i <;> simp [upd, hk])
    (fun j z t e => by subst e; funext k; by_cases hk : k = i <;> simp [upd, hk])
  exact this

theorem forLoop_congr {n : Nat} {σ : Type u} {b1 b2 : Fin n → σ → σ} (h : ∀ i s, b1 i s = b2 i s) (s : σ) :
    forLoop n b1 s = forLoop n b2 s := by
  have : b1 = b2 := by funext i s; exact h i s
  rw [this]

namespace Mat

theorem mset_eq_upd (M : Mat m n K) (i : Fin m) (j : Fin n) (v : K) :
    mset M i j v = upd M i (upd (M i) j v) := by
  funext a b
  by_cases ha : a = i
  · subst ha; by_cases hb : b = j <;> simp [mset, upd, hb]
  · simp [mset, upd, ha]

theorem forEach_eq (f : Fin m → Fin n → K → K) (M : Mat m n K) :
    forEach f M = fun i j => f i j (M i j) := by
  unfold forEach
  have h1 : ∀ (i : Fin m) (M : Mat m n K),
      forLoop n (fun j M => mset M i j (f i j (M i j))) M = upd M i (fun j => f i j (M i j)) := by
    intro i M
    have := forLoop_row i (fun j (r : Fin n → K) => upd r j (f i j (r j))) M
    rw [forLoop_upd_each] at this
    rw [← this]
    exact forLoop_congr (fun j M => mset_eq_upd _ _ _ _) M
  rw [forLoop_congr h1]
  exact forLoop_upd_each (fun i (r : Fin n → K) => fun j => f i j (r j)) M

theorem mset_transposed (f : Fin m → Fin n → K) (M : Mat n m K) :
    forLoop m (fun i t => forLoop n (fun j t => mset t j i (f i j)) t) M = fun j i => f i j := by
  have inner : ∀ (i : Fin m) (t : Mat n m K), forLoop n (fun j t => mset t j i (f i j)) t
      = fun a b => if b = i then f i a else t a b := by
    intro i t
    have := forLoop_inv (body := fun j (t : Mat n m K) => mset t j i (f i j)) (s := t)
      (fun k t' => ∀ a b, t' a b = if b = i ∧ a.1 < k then f i a else t a b) (by simp) (by
        intro j t' h a b
        simp only [mset]
        by_cases hb : b = i
        · by_cases ha : a = j
          · subst ha; simp [hb]
          · have : a.1 ≠ j.1 := fun e => ha (Fin.ext e)
            have hiff : a.1 < j.1 + 1 ↔ a.1 < j.1 := by omega
            simp only [ha, hb, false_and, if_false, h a, true_and, hiff]
        · simp [hb, h a])
    funext a b
    rw [this a b]; simp [a.2]
  rw [forLoop_congr inner]
  have := forLoop_inv (body := fun i (t : Mat n m K) => (fun a b => if b = i then f i a else t a b : Mat n m K)) (s := M)
    (fun k t' => ∀ a b, b.1 < k → t' a b = f b a) (by simp) (by
      intro i t' h a b hb
      by_cases e : b = i
      · subst e; simp
      · have : b.1 ≠ i.1 := fun e' => e (Fin.ext e')
        simp only [e, if_false]; exact h a b (by omega))
  funext a b; exact this a b b.2

theorem transpose_eq (tmp : Mat n m K) (M : Mat m n K) : transpose tmp M = fun j i => M i j := by
  unfold transpose; rw [mset_transposed (fun i j => M i j)]

theorem diagLoop (f : Fin D → K → K) (M : Mat D D K) :
    forLoop D (fun i M => mset M i i (f i (M i i))) M = fun i j => if i = j then f i (M i i) else M i j := by
  have := forLoop_inv (body := fun i (M : Mat D D K) => mset M i i (f i (M i i))) (s := M)
    (fun k M' => ∀ a b, M' a b = if a = b ∧ a.1 < k then f a (M a a) else M a b) (by simp) (by
      intro i M' h a b
      simp only [mset]
      by_cases ha : a = i
      · subst ha
        by_cases hb : b = a
        · subst hb; simp [h b b]
        · have hb' : a ≠ b := fun e => hb e.symm
          simp [hb, hb', h a b]
      · have : a.1 ≠ i.1 := fun e => ha (Fin.ext e)
        have hiff : a.1 < i.1 + 1 ↔ a.1 < i.1 := by omega
        simp only [ha, false_and, if_false, h a b, hiff])
  funext a b
  rw [this a b]; simp [a.2]

section Cofactor
variable {K : Type u} [Zero K] [One K] [Add K] [Mul K] [Neg K]

/-! ### cofactor -/

theorem succAbove_skip (col j : Fin (N + 1)) (hj : j.1 ≠ col.1) (a : Fin N)
    (ha : a.1 = if col.1 < j.1 then j.1 - 1 else j.1) : col.succAbove a = j := by
  by_cases h : col.1 < j.1
  · rw [if_pos h] at ha
    rw [Fin.succAbove_of_le_castSucc _ _ (by rw [Fin.le_def]; simp; omega)]
    apply Fin.ext; simp; omega
  · rw [if_neg h] at ha
    rw [Fin.succAbove_of_castSucc_lt _ _ (by rw [Fin.lt_def]; simp; omega)]
    apply Fin.ext; simp; omega

theorem cofRow_inner (mat : Mat (N + 1) (N + 1) K) (col : Fin (N + 1)) (i : Fin (N + 1)) (r : Nat) (hr : r < N)
    (tmp : Mat N N K) :
    forLoop (N + 1) (cofCell mat col.1 i) (.ok (r, 0, tmp))
      = .ok (r, N, fun a b => if a.1 = r then mat i (col.succAbove b) else tmp a b) := by
  have := forLoop_inv (body := cofCell mat col.1 i) (s := .ok (r, 0, tmp))
    (fun k st => ∃ t : Mat N N K, st = .ok (r, if col.1 < k then k - 1 else k, t) ∧
      ∀ a b, t a b = if a.1 = r ∧ b.1 < (if col.1 < k then k - 1 else k) then mat i (col.succAbove b) else tmp a b)
    ⟨tmp, by simp, by simp⟩ (by
      rintro j st ⟨t, rfl, ht⟩
      simp only [cofCell, Outcome.bind_ok]
      by_cases hj : j.1 = col.1
      · refine ⟨t, ?_, ?_⟩
        · simp [hj]
        · intro a b; rw [ht a b]; simp [hj]
      · have hc : (if col.1 < j.1 then j.1 - 1 else j.1) < N := by
          have := col.2; have := j.2
          split <;> omega
        simp only [hj, ne_eq, not_false_eq_true, if_true, setChecked, hr, hc, and_self, dif_pos, Outcome.bind_ok]
        have hnext : (if col.1 < j.1 then j.1 - 1 else j.1) + 1 = if col.1 < j.1 + 1 then j.1 + 1 - 1 else j.1 + 1 := by
          split <;> split <;> omega
        refine ⟨_, by rw [hnext], ?_⟩
        intro a b
        simp only [mset]
        by_cases hab : a = ⟨r, hr⟩ ∧ b = ⟨_, hc⟩
        · rw [if_pos hab, if_pos]
          · obtain ⟨rfl, rfl⟩ := hab
            rw [succAbove_skip col j hj _ rfl]
          · obtain ⟨rfl, rfl⟩ := hab
            refine ⟨rfl, ?_⟩
            show (if col.1 < j.1 then j.1 - 1 else j.1) < _
            omega
        · rw [if_neg hab, ht a b]
          have hiff : (a.1 = r ∧ b.1 < (if col.1 < j.1 then j.1 - 1 else j.1)) ↔
              (a.1 = r ∧ b.1 < (if col.1 < j.1 + 1 then j.1 + 1 - 1 else j.1 + 1)) := by
            rw [← hnext]
            constructor
            · rintro ⟨h1, h2⟩; exact ⟨h1, by omega⟩
            · rintro ⟨h1, h2⟩
              refine ⟨h1, ?_⟩
              by_contra hlt
              exact hab ⟨Fin.ext h1, Fin.ext (by show b.1 = (if col.1 < j.1 then j.1 - 1 else j.1); omega)⟩
          simp only [hiff])
  obtain ⟨t, e, ht⟩ := this
  rw [e]
  have hN : (if col.1 < N + 1 then N + 1 - 1 else N + 1) = N := by rw [if_pos col.2]; omega
  rw [hN] at ht ⊢
  congr 3
  funext a b
  rw [ht a b]; simp [b.2]

/-- the minor without a row and a column -/
theorem cofactor_ok (tmp : Mat N N K) (mat : Mat (N + 1) (N + 1) K) (row col : Fin (N + 1)) :
    cofactor tmp mat row.1 col.1 = .ok (fun a b => mat (row.succAbove a) (col.succAbove b)) := by
  have := forLoop_inv (body := cofRow mat row.1 col.1) (s := .ok (0, 0, tmp))
    (fun k st => ∃ (c : Nat) (t : Mat N N K), st = .ok (if row.1 < k then k - 1 else k, c, t) ∧
      ∀ a b, a.1 < (if row.1 < k then k - 1 else k) → t a b = mat (row.succAbove a) (col.succAbove b))
    ⟨0, tmp, by simp, by simp⟩ (by
      rintro i st ⟨c, t, rfl, ht⟩
      simp only [cofRow, Outcome.bind_ok]
      by_cases hi : i.1 = row.1
      · refine ⟨c, t, ?_, ?_⟩
        · simp [hi]
        · intro a b h; apply ht a b; simpa [hi] using h
      · have hr : (if row.1 < i.1 then i.1 - 1 else i.1) < N := by
          have := row.2; have := i.2
          split <;> omega
        have hnext : (if row.1 < i.1 then i.1 - 1 else i.1) + 1 = if row.1 < i.1 + 1 then i.1 + 1 - 1 else i.1 + 1 := by
          split <;> split <;> omega
        simp only [hi, ne_eq, not_false_eq_true, if_true]
        rw [cofRow_inner mat col i _ hr t]
        simp only [Outcome.bind_ok]
        refine ⟨N, _, by rw [hnext], ?_⟩
        intro a b h
        by_cases ha : a.1 = if row.1 < i.1 then i.1 - 1 else i.1
        · rw [if_pos ha]
          rw [succAbove_skip row i hi a ha]
        · rw [if_neg ha]; exact ht a b (by omega))
  obtain ⟨c, t, e, ht⟩ := this
  unfold cofactor
  rw [e]
  simp only [Outcome.bind_ok]
  congr 1
  funext a b
  exact ht a b (by rw [if_pos row.2]; have := a.2; omega)

end Cofactor

section Ring
variable {K : Type u} [Ring K]

theorem flat_inj {D : Nat} (a b i j : Fin D) : a.1 * D + b.1 = i.1 * D + j.1 ↔ a = i ∧ b = j := by
  constructor
  · intro h
    have hD : 0 < D := Nat.lt_of_le_of_lt (Nat.zero_le _) a.2
    have h1 : (a.1 * D + b.1) / D = a.1 := by
      rw [Nat.mul_comm, Nat.mul_add_div hD, Nat.div_eq_of_lt b.2]; omega
    have h2 : (i.1 * D + j.1) / D = i.1 := by
      rw [Nat.mul_comm, Nat.mul_add_div hD, Nat.div_eq_of_lt j.2]; omega
    have e : a.1 = i.1 := by rw [← h1, ← h2, h]
    refine ⟨Fin.ext e, Fin.ext ?_⟩
    rw [e] at h; omega
  · rintro ⟨rfl, rfl⟩; rfl

theorem fset_eq_mset (M : Mat D D K) (i j : Fin D) (v : K) : fset M (i.1 * D + j.1) v = mset M i j v := by
  funext a b
  simp only [fset, mset, flat_inj]

theorem outerProduct_eq (tmp : Mat D D K) (a b : Vec D K) : outerProduct tmp a b = fun i j => a i * b j := by
  have inner : ∀ (i : Fin D) (M : Mat D D K),
      forLoop D (fun j (st : Nat × Mat D D K) => (st.1 + 1, fset st.2 st.1 (a i * b j))) (i.1 * D, M)
        = ((i.1 + 1) * D, forLoop D (fun j M => mset M i j (a i * b j)) M) := by
    intro i M
    have h := forLoop_rel (b1 := fun j (st : Nat × Nat × Mat D D K) =>
        (st.1 + 1, st.2.1 + 1, fset st.2.2 st.2.1 (a i * b j)))
      (b2 := fun j (st : Nat × Mat D D K) => (st.1 + 1, fset st.2 st.1 (a i * b j)))
      (s := (0, i.1 * D, M)) (t := (i.1 * D, M)) (fun s t => s.2 = t) rfl
      (fun j s t e => by subst e; rfl)
    have h2 := forLoop_inv (n := D) (body := fun j (st : (Nat × Mat D D K) × Mat D D K) =>
        ((st.1.1 + 1, fset st.1.2 st.1.1 (a i * b j)), mset st.2 i j (a i * b j)))
      (s := ((i.1 * D, M), M)) (fun k st => st.1.1 = i.1 * D + k ∧ st.1.2 = st.2) ⟨rfl, rfl⟩ (by
        rintro j ⟨⟨p, M1⟩, M2⟩ ⟨h1, h2⟩
        simp only at h1 h2
        subst h1; subst h2
        exact ⟨by simp; omega, by simp [fset_eq_mset]⟩)
    have f1 := forLoop_rel (n := D) (b1 := fun j (st : (Nat × Mat D D K) × Mat D D K) =>
        ((st.1.1 + 1, fset st.1.2 st.1.1 (a i * b j)), mset st.2 i j (a i * b j)))
      (b2 := fun j (st : Nat × Mat D D K) => (st.1 + 1, fset st.2 st.1 (a i * b j)))
      (s := ((i.1 * D, M), M)) (t := (i.1 * D, M)) (fun s t => s.1 = t) rfl (fun j s t e => by subst e; rfl)
    have f2 := forLoop_rel (n := D) (b1 := fun j (st : (Nat × Mat D D K) × Mat D D K) =>
        ((st.1.1 + 1, fset st.1.2 st.1.1 (a i * b j)), mset st.2 i j (a i * b j)))
      (b2 := fun j (M : Mat D D K) => mset M i j (a i * b j))
      (s := ((i.1 * D, M), M)) (t := M) (fun s t => s.2 = t) rfl (fun j s t e => by subst e; rfl)
    rw [← f1, ← f2]
    refine Prod.ext ?_ h2.2
    rw [h2.1]; ring
  have outer := forLoop_inv (n := D) (body := fun i (st : Nat × Mat D D K) => forLoop D (fun j (st : Nat × Mat D D K) =>
      (st.1 + 1, fset st.2 st.1 (a i * b j))) st) (s := (0, tmp))
    (fun k st => st.1 = k * D ∧ ∀ x y, x.1 < k → st.2 x y = a x * b y) (by simp) (by
      rintro i ⟨p, M⟩ ⟨h1, h2⟩
      simp only at h1 h2
      subst h1
      rw [inner]
      refine ⟨rfl, fun x y hx => ?_⟩
      have hrow := forLoop_row i (fun j (r : Fin D → K) => upd r j (a i * b j)) M
      rw [forLoop_fill] at hrow
      rw [forLoop_congr (b2 := fun j (M : Mat D D K) => upd M i (upd (M i) j (a i * b j))) (fun j M => mset_eq_upd _ _ _ _), hrow]
      by_cases e : x = i
      · subst e; simp
      · have : x.1 ≠ i.1 := fun e' => e (Fin.ext e')
        show upd M i _ x y = _
        rw [upd_ne _ e]; exact h2 x y (by omega))
  funext i j
  exact outer.2 i j i.2

theorem outerProductAcc_eq (a b : Vec D K) (c : Mat D D K) (fact : K) :
    outerProductAcc a b c fact = fun i j => c i j + fact * a i * b j := by
  have := forEach_eq (fun i j x => x + fact * a i * b j) c
  rw [← this]
  unfold outerProductAcc forEach
  exact forLoop_congr (fun i c => forLoop_congr (fun j c => fset_eq_mset _ _ _ _) c) c

theorem axPlusY_eq (A : Mat m n K) (x : Vec n K) (y : Vec m K) : axPlusY A x y = fun i => y i + ∑ j, A i j * x j := by
  unfold axPlusY
  have h1 : ∀ (i : Fin m) (y : Vec m K), forLoop n (fun j y => upd y i (y i + A i j * x j)) y
      = upd y i (y i + ∑ j, A i j * x j) := by
    intro i y
    rw [forLoop_row i (fun j s => s + A i j * x j) y, forLoop_sum]
  rw [forLoop_congr h1]
  exact forLoop_upd_each (fun i s => s + ∑ j, A i j * x j) y

theorem mulVec_eq (tmp : Vec m K) (A : Mat m n K) (x : Vec n K) : mulVec tmp A x = fun i => ∑ j, A i j * x j := by
  unfold mulVec
  have h1 : ∀ (i : Fin m) (y : Vec m K), forLoop n (fun j y => upd y i (y i + A i j * x j)) (upd y i 0)
      = upd y i (∑ j, A i j * x j) := by
    intro i y
    rw [forLoop_row i (fun j s => s + A i j * x j) (upd y i 0), forLoop_sum]
    funext k; by_cases hk : k = i <;> simp [upd, hk]
  rw [forLoop_congr h1]
  rw [forLoop_fill (fun i => ∑ j, A i j * x j)]

theorem matMulAcc_eq (A : Mat m n K) (B : Mat n p K) (C : Mat m p K) : matMulAcc A B C = fun i j => C i j + ∑ k, A i k * B k j := by
  have := forEach_eq (fun i j x => x + ∑ k, A i k * B k j) C
  unfold forEach at this
  unfold matMulAcc
  have h : ∀ (i : Fin m) (C : Mat m p K),
      forLoop p (fun j C => let sum := forLoop n (fun k s => s + A i k * B k j) 0
        mset C i j (C i j + sum)) C
      = forLoop p (fun j C => mset C i j (C i j + ∑ k, A i k * B k j)) C := by
    intro i C
    refine forLoop_congr (fun j C => ?_) C
    simp only [forLoop_sum, zero_add]
  rw [forLoop_congr h, this]

theorem matMul_eq (A : Mat m n K) (B : Mat n p K) : matMul A B = fun i j => ∑ k, A i k * B k j := by
  rw [matMul, matMulAcc_eq]
  funext i j
  exact zero_add _

theorem identityMatrix_eq (N : Nat) : (identityMatrix N : Mat N N K) = fun i j => if i = j then 1 else 0 := by
  unfold identityMatrix
  rw [diagLoop (fun _ _ => 1)]

theorem reflectionMatrix_eq (tmp : Mat D D K) (n : Vec D K) :
    reflectionMatrix tmp n = fun i j => (if i = j then 1 else 0) - 2 * (n i * n j) := by
  unfold reflectionMatrix
  simp only [outerProduct_eq]
  rw [diagLoop (fun _ x => x + 1)]
  funext i j
  by_cases h : i = j
  · subst h; simp [neg_mul, sub_eq_add_neg, add_comm]
  · simp [h]

theorem projectionMatrix_eq (tmp : Mat D D K) (n : Vec D K) :
    projectionMatrix tmp n = fun i j => (if i = j then 1 else 0) - n i * n j := by
  unfold projectionMatrix
  simp only [outerProduct_eq]
  rw [diagLoop (fun _ x => x + 1)]
  funext i j
  by_cases h : i = j
  · subst h; simp [sub_eq_add_neg, add_comm]
  · simp [h]

theorem traceMatrix_eq (M : Mat N N K) : traceMatrix M = ∑ i, M i i := by
  unfold traceMatrix; rw [forLoop_sum]; simp

theorem doubleSum (f : Fin m → Fin n → K) :
    forLoop m (fun i dd => forLoop n (fun j dd => dd + f i j) dd) 0 = ∑ i, ∑ j, f i j := by
  rw [forLoop_congr (fun i dd => forLoop_sum (f i) dd), forLoop_sum]; simp

theorem doubledot_eq (A B : Mat m n K) : doubledot A B = ∑ i, ∑ j, A i j * B i j := doubleSum _

theorem matrixVector_eq (alpha : K) (A : Mat m n K) (x : Vec n K) (beta : K) (y : Vec m K) :
    matrixVector alpha A x beta y =
      fun i => (∑ j : Fin n, beta ^ (n - 1 - j.1) * (alpha * A i j * x j)) + beta ^ n * y i := by
  unfold matrixVector
  have h1 : ∀ (i : Fin m) (y : Vec m K),
      forLoop n (fun j y => upd y i (alpha * A i j * x j + beta * y i)) y
      = upd y i ((∑ j : Fin n, beta ^ (n - 1 - j.1) * (alpha * A i j * x j)) + beta ^ n * y i) := by
    intro i y
    rw [forLoop_row i (fun j s => alpha * A i j * x j + beta * s) y]
    congr 1
    generalize y i = s
    generalize hg : (fun j : Fin n => alpha * A i j * x j) = g
    have key : ∀ (k : Nat) (g : Fin k → K) (s : K), forLoop k (fun j s => g j + beta * s) s
        = (∑ j : Fin k, beta ^ (k - 1 - j.1) * g j) + beta ^ k * s := by
      intro k
      induction k with
      | zero => intro g s; simp
      | succ k ih =>
        intro g s
        rw [forLoop_succ, ih, Fin.sum_univ_castSucc, mul_add, Finset.mul_sum]
        have : ∀ j : Fin k, beta * (beta ^ (k - 1 - j.1) * g j.castSucc)
            = beta ^ (k + 1 - 1 - j.castSucc.1) * g j.castSucc := by
          intro j
          have e : k + 1 - 1 - j.castSucc.1 = (k - 1 - j.1) + 1 := by
            have := j.2; simp; omega
          rw [e, pow_succ', mul_assoc]
        simp only [this]
        have e2 : k + 1 - 1 - (Fin.last k).1 = 0 := by simp
        rw [e2, pow_zero, one_mul, pow_succ' beta k, mul_assoc]
        abel
    have := key n g s
    subst hg
    exact this
  rw [forLoop_congr h1]
  exact forLoop_upd_each (fun i s => (∑ j : Fin n, beta ^ (n - 1 - j.1) * (alpha * A i j * x j)) + beta ^ n * s) y

end Ring

section CommRing
variable {K : Type u} [CommRing K]

theorem sign_eq (k : Nat) : (if k % 2 = 1 then -1 else 1 : K) = (-1) ^ k := by
  rcases Nat.mod_two_eq_zero_or_one k with h | h
  · rw [if_neg (by omega), Even.neg_one_pow (Nat.even_iff.2 h)]
  · rw [if_pos h, Odd.neg_one_pow (Nat.odd_iff.2 h)]

theorem determinant_ok (N : Nat) (M : Mat (N + 1) (N + 1) K) : determinant N M = .ok (Matrix.of M).det := by
  induction N with
  | zero => rw [Matrix.det_fin_one]; rfl
  | succ N ih =>
    unfold determinant
    rw [forLoop_ok _ (fun i s => s + (-1) ^ i.1 * M 0 i * ((Matrix.of M).submatrix Fin.succ i.succAbove).det) ?_ 0]
    · rw [forLoop_sum, zero_add, Matrix.det_succ_row_zero]; rfl
    · intro i s
      have := cofactor_ok (fun _ _ => 0) M 0 i
      simp only [Fin.val_zero] at this
      simp only [Outcome.bind_ok, this, ih, sign_eq, Fin.succAbove_zero]
      rfl

end CommRing

section Field
variable {K : Type u} [Field K] [DecidableEq K]

theorem inverse_of_adj (A : Mat n n K) (_h : (Matrix.of A).det ≠ 0) : (Matrix.of A)⁻¹ = Matrix.of fun i j => (Matrix.of A).adjugate i j * (1 / (Matrix.of A).det) := by
  rw [Matrix.inv_def, Ring.inverse_eq_inv']
  funext i j
  rw [Matrix.smul_apply, smul_eq_mul, one_div, mul_comm]
  rfl

theorem inverseN_ok (tmp A : Mat (N + 2) (N + 2) K) (h : (Matrix.of A).det ≠ 0) : inverseN tmp A = .ok (fun i j => (Matrix.of A)⁻¹ i j) := by
  unfold inverseN
  simp only [determinant_ok, Outcome.bind_ok, h, ne_eq, not_false_eq_true, if_true]
  have hbody : ∀ (j : Fin (N + 2)) (t : Mat (N + 2) (N + 2) K),
      forLoop (N + 2) (fun i (st : Outcome (Mat (N + 2) (N + 2) K)) => do
        let tmp ← st
        let minor ← cofactor (fun _ _ => 0) A j.1 i.1
        let d ← determinant N minor
        let val := 1 / (Matrix.of A).det * d
        let val := if (i.1 + j.1) % 2 = 1 then -val else val
        .ok (mset tmp i j val)) (.ok t)
      = .ok (forLoop (N + 2) (fun i t => mset t i j ((Matrix.of A).adjugate i j * (1 / (Matrix.of A).det))) t) := by
    intro j t
    apply forLoop_ok
    intro i t
    simp only [cofactor_ok, Outcome.bind_ok, determinant_ok]
    congr 2
    rw [Matrix.adjugate_fin_succ_eq_det_submatrix, Nat.add_comm j.1 i.1, ← sign_eq]
    have e : (Matrix.of fun a b => A (j.succAbove a) (i.succAbove b)).det
        = ((Matrix.of A).submatrix j.succAbove i.succAbove).det := rfl
    rw [e]
    split <;> ring
  simp only [determinant_ok, Outcome.bind_ok] at hbody
  rw [forLoop_ok _ _ hbody]
  rw [mset_transposed (fun j i => (Matrix.of A).adjugate i j * (1 / (Matrix.of A).det)), inverse_of_adj A h]
  rfl

theorem inverseN_fail (tmp A : Mat (N + 2) (N + 2) K) (h : (Matrix.of A).det = 0) : inverseN tmp A = .assertFail := by
  unfold inverseN
  simp [determinant_ok, h]

theorem inverse1_ok (tmp A : Mat 1 1 K) (h : (Matrix.of A).det ≠ 0) : inverse1 tmp A = .ok (fun i j => (Matrix.of A)⁻¹ i j) := by
  rw [inverse_of_adj A h]
  rw [Matrix.det_fin_one, Matrix.of_apply] at *
  simp only [inverse1, ne_eq, h, not_false_eq_true, if_true]
  congr 1
  funext i j
  fin_cases i; fin_cases j
  simp [mset, Matrix.adjugate_fin_one]

theorem inverse2_ok (tmp A : Mat 2 2 K) (h : (Matrix.of A).det ≠ 0) : inverse2 tmp A = .ok (fun i j => (Matrix.of A)⁻¹ i j) := by
  rw [inverse_of_adj A h, Matrix.adjugate_fin_two]
  rw [Matrix.det_fin_two] at *
  simp only [Matrix.of_apply] at h ⊢
  simp only [inverse2, ne_eq, h, not_false_eq_true, if_true, divAssign]
  congr 1
  funext i j
  fin_cases i <;> fin_cases j <;> simp [mset]

theorem inverse3_det (A : Mat 3 3 K) :
    A 0 0 * A 1 1 * A 2 2 + A 0 1 * A 1 2 * A 2 0 + A 0 2 * A 1 0 * A 2 1 -
    A 2 0 * A 1 1 * A 0 2 - A 2 1 * A 1 2 * A 0 0 - A 2 2 * A 1 0 * A 0 1 = (Matrix.of A).det := by
  rw [Matrix.det_fin_three]; simp only [Matrix.of_apply]; ring

theorem inverse3_ok (tmp A : Mat 3 3 K) (h : (Matrix.of A).det ≠ 0) : inverse3 tmp A = .ok (fun i j => (Matrix.of A)⁻¹ i j) := by
  rw [inverse_of_adj A h, Matrix.adjugate_fin_three]
  simp only [inverse3, inverse3_det, ne_eq, h, not_false_eq_true, if_true, divAssign]
  congr 1
  funext i j
  fin_cases i <;> fin_cases j <;> simp [mset] <;> left <;> ring

theorem inverse_ok (tmp A : Mat (N + 1) (N + 1) K) (h : (Matrix.of A).det ≠ 0) : inverse tmp A = .ok (fun i j => (Matrix.of A)⁻¹ i j) := by
  match N, tmp, A, h with
  | 0, tmp, A, h => exact inverse1_ok tmp A h
  | 1, tmp, A, h => exact inverse2_ok tmp A h
  | 2, tmp, A, h => exact inverse3_ok tmp A h
  | _ + 3, tmp, A, h => exact inverseN_ok tmp A h

theorem inverse_fail (tmp A : Mat (N + 1) (N + 1) K) (h : (Matrix.of A).det = 0) : inverse tmp A = .assertFail := by
  match N, tmp, A, h with
  | 0, tmp, A, h =>
    rw [Matrix.det_fin_one, Matrix.of_apply] at h
    simp [inverse, inverse1, h]
  | 1, tmp, A, h =>
    rw [Matrix.det_fin_two] at h
    simp only [Matrix.of_apply] at h
    simp [inverse, inverse2, h]
  | 2, tmp, A, h => simp [inverse, inverse3, inverse3_det, h]
  | _ + 3, tmp, A, h => exact inverseN_fail tmp A h

end Field

end Mat
end Verif
