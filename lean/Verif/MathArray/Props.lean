import Verif.MathArray.Model
import Mathlib.Algebra.Field.Basic
import Mathlib.Algebra.Field.Rat
import Mathlib.Algebra.Module.Pi
import Mathlib.Data.Fintype.Basic
import Mathlib.Data.Fin.VecNotation
import Mathlib.Tactic.FinCases
import Mathlib.Tactic.NormNum

/-!
# C16 (aliasing), C17 (scalar division), C18 (order), C19 (elementwise arithmetic), and the
`math::array` part of C05
-/

namespace Verif.MathArray

/-! ## C16 -/

/-- **Full property C16 for an array argument**: the values before the call are used -/
def UsesOldValues (op : T → T → T) (x : Arr n T) (rhs : ArrArg n T) (x' : Arr n T) : Prop :=
  ∀ i, x' i = op (x i) (rhs.read x i)
/-- **Full property C16 for a scalar argument** -/
def UsesOldScalar (op : T → T → T) (x : Arr n T) (rhs : ScalArg n T) (x' : Arr n T) : Prop :=
  ∀ i, x' i = op (x i) (rhs.read x)

/-- **C16** `math::array`: `x op= y` for an array argument, also for `x op= x`. -/
theorem C16_array_op_assign {T : Type} (op : T → T → T) (x : Arr n T) (rhs : ArrArg n T) :
    UsesOldValues op x rhs (opAssign op x rhs) := by
  intro i
  cases rhs with
  | other y => exact congrFun (forLoop_upd_each (fun i v => op v (y i)) x) i
  | self => exact congrFun (forLoop_upd_each (fun _ v => op v v) x) i

/-- `x *= x` -/
example : opAssign (· * ·) (![2, 3] : Arr 2 Int) .self 1 = 9 := C16_array_op_assign (· * ·) ![2, 3] .self 1

/-- **C16** `math::array`: `x /= s` is safe for `s = x[k]` (the reciprocal is taken first). -/
theorem C16_array_div_assign {T : Type} (mul div : T → T → T) (one : T) (x : Arr n T) (rhs : ScalArg n T) :
    UsesOldScalar (fun a s => mul a (div one s)) x rhs (divScalAssign mul div one x rhs) := fun i =>
  congrFun (forLoop_upd_each (fun _ v => mul v (div one (rhs.read x))) x) i

/-- **C16** `fill` and assignment of a value are safe for `x[k]`, in both classes. -/
theorem C16_fill {T : Type} (x : Arr n T) (rhs : ScalArg n T) :
    (∀ i, fillAssign x rhs i = rhs.read x) ∧ (∀ i, dimFillAssign x rhs i = rhs.read x) := by
  have : fillAssign x rhs = fun _ => rhs.read x := by
    cases rhs with
    | value v => exact forLoop_fill (fun _ => v) x
    | element k =>
      have := forLoop_inv (n := n) (body := fun i (y : Arr n T) => upd y i (y k)) (s := x)
        (fun m y => ∀ i : Fin n, y i = if i.1 < m then x k else x i) (fun i => by simp)
        (fun i y h j => by
          have hk : y k = x k := by rw [h k]; split <;> rfl
          by_cases hj : j = i
          · subst hj; simp [hk]
          · rw [upd_ne _ hj, h j]
            have : j.1 ≠ i.1 := fun e => hj (Fin.ext e)
            by_cases h1 : j.1 < i.1
            · rw [if_pos h1, if_pos (by omega)]
            · rw [if_neg h1, if_neg (by omega)])
      funext i
      have := this i
      rw [if_pos i.2] at this
      exact this
  exact ⟨congrFun this, congrFun this⟩

/-- `x = x[1]` -/
example : fillAssign (![2, 3] : Arr 2 Int) (.element 1) 0 = 3 := (C16_fill ![2, 3] (.element 1)).1 0

/-- **C16** What `x op= x[k]` gives for `+=`, `-=`, `*=`: the elements after `k` are combined
with the already updated `x[k]`. -/
theorem C16_array_scalar_alias_partial {T : Type} (op : T → T → T) (x : Arr n T) (k i : Fin n) :
    scalAssign op x (.element k) i =
      if i ≤ k then op (x i) (x k) else op (x i) (op (x k) (x k)) := by
  have := forLoop_inv (n := n) (body := fun i (y : Arr n T) => upd y i (op (y i) (y k))) (s := x)
    (fun m y => ∀ i : Fin n, y i = if i.1 < m then
      (if i ≤ k then op (x i) (x k) else op (x i) (op (x k) (x k))) else x i)
    (fun i => by simp)
    (fun i y h j => by
      have hi : y i = x i := by rw [h i, if_neg (Nat.lt_irrefl _)]
      by_cases hj : j = i
      · subst hj
        have hk : y k = if k.1 < j.1 then op (x k) (x k) else x k := by
          rw [h k]; simp
        rw [upd_same, hi, hk, if_pos (Nat.lt_succ_self _)]
        by_cases hkj : k.1 < j.1
        · rw [if_pos hkj, if_neg (by rw [Fin.le_def]; omega)]
        · rw [if_neg hkj, if_pos (by rw [Fin.le_def]; omega)]
      · rw [upd_ne _ hj, h j]
        have : j.1 ≠ i.1 := fun e => hj (Fin.ext e)
        by_cases h1 : j.1 < i.1
        · rw [if_pos h1, if_pos (Nat.lt_succ_of_lt h1)]
        · rw [if_neg h1, if_neg (show ¬ j.1 < i.1 + 1 by omega)])
  have := this i
  rw [if_pos i.2] at this
  exact this

/-- **C16 (partial)** It is right when the scalar is a separate object, or the last element. -/
theorem C16_array_scalar_partial {T : Type} (op : T → T → T) (x : Arr n T) (rhs : ScalArg n T)
    (h : ∀ k, rhs = .element k → k.1 + 1 = n) : UsesOldScalar op x rhs (scalAssign op x rhs) := by
  cases rhs with
  | value v => exact fun i => congrFun (forLoop_upd_each (fun _ w => op w v) x) i
  | element k =>
    intro i
    rw [C16_array_scalar_alias_partial, if_pos]
    · rfl
    · have := h k rfl; rw [Fin.le_def]; omega

example : ∀ k : Fin 3, (ScalArg.element 2 : ScalArg 3 Nat) = .element k → k.1 + 1 = 3 := by
  intro k h; cases h; rfl

/-- **C16 fails**: `(2,3) *= x[0]` gives `(4,12)`, not `(4,6)`. -/
theorem C16_array_scalar_alias_fails :
    ¬ UsesOldScalar (· * ·) (![2, 3] : Arr 2 Int) (.element 0) (scalAssign (· * ·) ![2, 3] (.element 0)) := by
  intro h
  have := h 1
  rw [C16_array_scalar_alias_partial] at this
  revert this; decide

/-- **C16** exactly: `x op= x[k]` uses the old value if and only if, for every element after `k`,
combining with the updated `x[k]` gives the same as combining with the old one. -/
theorem C16_array_scalar_alias_iff {T : Type} (op : T → T → T) (x : Arr n T) (k : Fin n) :
    UsesOldScalar op x (.element k) (scalAssign op x (.element k)) ↔
      ∀ i, k < i → op (x i) (op (x k) (x k)) = op (x i) (x k) := by
  constructor
  · intro h i hi
    have := h i
    rw [C16_array_scalar_alias_partial, if_neg (not_le.2 hi)] at this
    exact this
  · intro h i
    rw [C16_array_scalar_alias_partial]
    split
    · rfl
    · next hi => exact h i (not_le.1 hi)

/-- **C16** exactly, for `+=` on numbers: right if and only if `x[k]` is zero or the last element. -/
theorem C16_array_add_alias_iff {T : Type} [Ring T] (x : Arr n T) (k : Fin n) :
    UsesOldScalar (· + ·) x (.element k) (scalAssign (· + ·) x (.element k)) ↔ x k = 0 ∨ k.1 + 1 = n := by
  rw [C16_array_scalar_alias_iff]
  constructor
  · intro h
    by_cases hk : k.1 + 1 = n
    · exact .inr hk
    · left
      have := h ⟨k.1 + 1, by omega⟩ (by rw [Fin.lt_def]; simp)
      simpa using this
  · rintro (h | h) i hi
    · simp [h]
    · rw [Fin.lt_def] at hi; omega

example : UsesOldScalar (· + ·) (![0, 3] : Arr 2 Int) (.element 0) (scalAssign (· + ·) ![0, 3] (.element 0)) :=
  (C16_array_add_alias_iff _ _).2 (.inl rfl)

/-- **C16** `dimensioned_array`: right for every separate argument and every scalar,
including one of its own elements. -/
theorem C16_dimensioned_partial {T : Type} (op : T → T → T) (x y : Arr n T) (s : ScalArg n T) :
    UsesOldValues op x (.other y) (dimOpAssign op x (.other y)) ∧
    UsesOldScalar op x s (dimScalAssign op x s) :=
  ⟨fun i => congrFun (forLoop_upd_each (fun i v => op v (y i)) x) i,
   fun i => congrFun (forLoop_upd_each (fun _ w => op w (s.read x)) x) i⟩

/-- **C16 fails** for `dimensioned_array`: `x op= x` does nothing. -/
theorem C16_dimensioned_self_fails {T : Type} (op : T → T → T) (x : Arr n T) :
    dimOpAssign op x .self = x := rfl

/-- **C16 fails**: a case where that differs from the elementwise sum. -/
theorem C16_dimensioned_self_witness_fails :
    ¬ UsesOldValues (· + ·) (![1, 2] : Arr 2 Int) .self (dimOpAssign (· + ·) ![1, 2] .self) := by
  intro h; have := h 0; revert this; decide

/-- **C16** `swap` exchanges the contents. -/
theorem C16_swap {T : Type} (x y : Arr n T) : swap x y = (y, x) := by
  have := forLoop_inv (n := n)
    (body := fun i (p : Arr n T × Arr n T) => (upd p.1 i (p.2 i), upd p.2 i (p.1 i))) (s := (x, y))
    (fun m p => ∀ i : Fin n, p.1 i = (if i.1 < m then y i else x i) ∧ p.2 i = (if i.1 < m then x i else y i))
    (fun i => by simp)
    (fun i p h j => by
      by_cases hj : j = i
      · subst hj; simp [(h j).1, (h j).2]
      · dsimp only; rw [upd_ne _ hj, upd_ne _ hj, (h j).1, (h j).2]
        have : j.1 ≠ i.1 := fun e => hj (Fin.ext e)
        by_cases h1 : j.1 < i.1
        · simp [h1, show j.1 < i.1 + 1 by omega]
        · simp [h1, show ¬ j.1 < i.1 + 1 by omega])
  refine Prod.ext (funext fun i => ?_) (funext fun i => ?_)
  · have := (this i).1; rw [if_pos i.2] at this; exact this
  · have := (this i).2; rw [if_pos i.2] at this; exact this

/-! ## C17 -/

/-- **C17** Over a field (exact arithmetic), dividing by a scalar divides each element, for
both `a / s` and `a /= s`. -/
theorem C17_division_partial {T : Type} [Field T] (tmp x : Arr n T) (s : T) (i : Fin n) :
    divScal (· * ·) (· / ·) 1 tmp x s i = x i / s ∧
    divScalAssign (· * ·) (· / ·) 1 x (.value s) i = x i / s := by
  constructor
  · have : divScal (· * ·) (· / ·) 1 tmp x s = fun i => x i * (1 / s) := forLoop_fill _ tmp
    rw [this]; exact mul_one_div _ _
  · rw [C16_array_div_assign]; simp [ScalArg.read, div_eq_mul_inv]

example : divScal (· * ·) (· / ·) 1 0 (![1, 2] : Arr 2 Rat) 4 1 = 1 / 2 := by
  rw [(C17_division_partial _ _ _ _).1]; norm_num

/-- **C17 fails** for integers: dividing by anything of absolute value at least two gives
all zeros (the reciprocal truncates to zero). -/
theorem C17_integer_division_fails (tmp x : Arr n Int) (s : Int) (h : 2 ≤ s.natAbs) :
    (∀ i, divScal (· * ·) Int.tdiv 1 tmp x s i = 0) ∧
    (∀ i, divScalAssign (· * ·) Int.tdiv 1 x (.value s) i = 0) := by
  have hz : Int.tdiv 1 s = 0 := by
    rcases Int.natAbs_eq s with e | e
    · rw [e, Int.tdiv_eq_ediv_of_nonneg (by decide)]
      exact Int.ediv_eq_zero_of_lt (by decide) (by omega)
    · rw [e, Int.tdiv_neg, Int.tdiv_eq_ediv_of_nonneg (by decide),
        Int.ediv_eq_zero_of_lt (by decide) (by omega)]; rfl
  constructor
  · intro i
    have : divScal (· * ·) Int.tdiv 1 tmp x s = fun i => x i * Int.tdiv 1 s := forLoop_fill _ tmp
    rw [this, hz]; exact mul_zero _
  · intro i; rw [C16_array_div_assign]; simp [ScalArg.read, hz]

example : divScal (· * ·) Int.tdiv 1 0 (![4, 6] : Arr 2 Int) 2 1 = 0 := (C17_integer_division_fails _ _ 2 (by decide)).1 1

/-- a case where this differs from elementwise division: (4,6)/2 -/
theorem C17_integer_witness_fails :
    divScal (· * ·) Int.tdiv 1 0 (![4, 6] : Arr 2 Int) 2 0 ≠ Int.tdiv 4 2 := by
  rw [(C17_integer_division_fails _ _ 2 (by decide)).1]; decide

/-- **C17** exactly, for integers: dividing by `s` is right if and only if `s` is one or minus
one, or every element is smaller than `s` in absolute value (so that every quotient is zero). -/
theorem C17_integer_division_iff (tmp x : Arr n Int) (s : Int) (hs : s ≠ 0) :
    (∀ i, divScal (· * ·) Int.tdiv 1 tmp x s i = Int.tdiv (x i) s) ↔
      s.natAbs = 1 ∨ ∀ i, (x i).natAbs < s.natAbs := by
  by_cases h : 2 ≤ s.natAbs
  · have key : ∀ a : Int, Int.tdiv a s = 0 ↔ a.natAbs < s.natAbs := by
      intro a
      rw [← Int.natAbs_eq_zero, Int.natAbs_tdiv]
      change a.natAbs / s.natAbs = 0 ↔ _
      rw [Nat.div_eq_zero_iff]
      omega
    constructor
    · intro he
      right
      intro i
      rw [← key, ← he i, (C17_integer_division_fails tmp x s h).1]
    · rintro (h1 | h1) i
      · omega
      · rw [(C17_integer_division_fails tmp x s h).1, (key _).2 (h1 i)]
  · have h1 : s.natAbs = 1 := by omega
    refine ⟨fun _ => .inl h1, fun _ i => ?_⟩
    have : divScal (· * ·) Int.tdiv 1 tmp x s = fun i => x i * Int.tdiv 1 s := forLoop_fill _ tmp
    rw [this]
    rcases Int.natAbs_eq s with e | e <;> rw [e, h1] <;> simp

example : (∀ i, divScal (· * ·) Int.tdiv 1 0 (![4, -6] : Arr 2 Int) (-1) i = Int.tdiv ((![4, -6] : Arr 2 Int) i) (-1)) :=
  (C17_integer_division_iff _ _ (-1) (by decide)).2 (.inl (by decide))

/-- **C17** `dimensioned_array` divides each element directly: right for every element type. -/
theorem C17_dimensioned {T : Type} (div : T → T → T) (x : Arr n T) (s : T) (i : Fin n) :
    dimDiv div x s i = div (x i) s ∧ dimScalAssign div x (.value s) i = div (x i) s :=
  ⟨(C16_dimensioned_partial div x x (.value s)).2 i, (C16_dimensioned_partial div x x (.value s)).2 i⟩

/-! ## C18 -/

/-- specification of lexicographic order: the first difference decides -/
def LexLt [LT T] (x y : Arr n T) : Prop := ∃ i : Fin n, (∀ j, j < i → x j = y j) ∧ x i < y i

theorem eqFrom_iff [DecidableEq T] (x y : Arr n T) (i : Nat) :
    eqFrom x y i = true ↔ ∀ j : Fin n, i ≤ j.1 → x j = y j := by
  induction hd : n - i generalizing i with
  | zero => rw [eqFrom, dif_neg (by omega)]; simp; intro j hj; have := j.2; omega
  | succ d ih =>
    rw [eqFrom, dif_pos (by omega)]
    by_cases h : x ⟨i, by omega⟩ = y ⟨i, by omega⟩
    · simp only [h, ne_eq, not_true_eq_false, if_false]
      rw [ih (i + 1) (by omega)]
      constructor
      · intro hh j hj
        by_cases hji : j.1 = i
        · have : j = ⟨i, by omega⟩ := Fin.ext hji
          rw [this, h]
        · exact hh j (by omega)
      · intro hh j hj; exact hh j (by omega)
    · simp only [h, ne_eq, not_false_eq_true, if_true, Bool.false_eq_true, false_iff]
      intro hh; exact h (hh ⟨i, by omega⟩ (Nat.le_refl _))

/-- **C18** `==` and `!=` are elementwise (in)equality; comparison with a scalar means every
element equals it. -/
theorem C18_eq {T : Type} [DecidableEq T] (x y : Arr n T) :
    (eq x y = true ↔ x = y) ∧ (ne x y = true ↔ x ≠ y) ∧ ∀ v, eqScal x v = true ↔ ∀ i, x i = v := by
  have h : ∀ x y : Arr n T, eq x y = true ↔ x = y := fun x y => by
    rw [eq, eqFrom_iff]; simp [funext_iff]
  refine ⟨h x y, ?_, fun v => ?_⟩
  · rw [ne, Bool.not_eq_true', ← Bool.not_eq_true, h]
  · rw [eqScal, h]; exact funext_iff

theorem ltFrom_iff [LinearOrder T] (x y : Arr n T) (i : Nat) :
    ltFrom x y i = true ↔ ∃ j : Fin n, i ≤ j.1 ∧ (∀ k : Fin n, i ≤ k.1 → k < j → x k = y k) ∧ x j < y j := by
  induction hd : n - i generalizing i with
  | zero => rw [ltFrom, dif_neg (by omega)]; simp; intro j hj; have := j.2; omega
  | succ d ih =>
    have hi : i < n := by omega
    rw [ltFrom, dif_pos hi]
    split
    · next h => simp only [true_iff]; exact ⟨⟨i, hi⟩, Nat.le_refl _, fun k h1 h2 => by simp [Fin.lt_def] at h2; omega, h⟩
    · next h =>
      split
      · next h' =>
        simp only [Bool.false_eq_true, false_iff]
        rintro ⟨j, hj, heq, hlt⟩
        by_cases hji : j.1 = i
        · have : j = ⟨i, hi⟩ := Fin.ext hji
          subst this; exact h hlt
        · have := heq ⟨i, hi⟩ (Nat.le_refl _) (by simp [Fin.lt_def]; omega)
          rw [this] at h'; exact lt_irrefl _ h'
      · next h' =>
        have he : x ⟨i, hi⟩ = y ⟨i, hi⟩ := le_antisymm (not_lt.1 h') (not_lt.1 h)
        rw [ih (i + 1) (by omega)]
        constructor
        · rintro ⟨j, hj, heq, hlt⟩
          refine ⟨j, by omega, fun k hk hkj => ?_, hlt⟩
          by_cases hki : k.1 = i
          · have : k = ⟨i, hi⟩ := Fin.ext hki
            rw [this, he]
          · exact heq k (by omega) hkj
        · rintro ⟨j, hj, heq, hlt⟩
          have hji : j.1 ≠ i := fun e => by
            have : j = ⟨i, hi⟩ := Fin.ext e
            rw [this] at hlt; exact h hlt
          exact ⟨j, by omega, fun k hk hkj => heq k (by omega) hkj, hlt⟩

/-- **C18** `<` is the lexicographic order. -/
theorem C18_lt_lex {T : Type} [LinearOrder T] (x y : Arr n T) : lt x y = true ↔ LexLt x y := by
  rw [lt, ltFrom_iff]; simp [LexLt]

/-- **C18** The comparisons form a strict total order with consistent derived operators. -/
theorem C18_total_order {T : Type} [LinearOrder T] (x y z : Arr n T) :
    (lt x x = false) ∧
    (lt x y = true → lt y z = true → lt x z = true) ∧
    (lt x y = true ∨ x = y ∨ lt y x = true) ∧
    (lt x y = true → eq x y = false ∧ lt y x = false) ∧
    (gt x y = true ↔ lt y x = true) ∧
    (le x y = true ↔ lt x y = true ∨ eq x y = true) ∧
    (ge x y = true ↔ lt y x = true ∨ eq x y = true) := by
  have irr : ∀ x : Arr n T, lt x x = false := fun x => by
    rw [← Bool.not_eq_true, C18_lt_lex]; rintro ⟨i, _, h⟩; exact lt_irrefl _ h
  have tr : ∀ x y z : Arr n T, lt x y = true → lt y z = true → lt x z = true := by
    intro x y z h1 h2
    rw [C18_lt_lex] at *
    obtain ⟨i, e1, l1⟩ := h1
    obtain ⟨j, e2, l2⟩ := h2
    rcases lt_trichotomy i j with h | h | h
    · exact ⟨i, fun k hk => (e1 k hk).trans (e2 k (lt_trans hk h)), by rw [← e2 i h]; exact l1⟩
    · subst h; exact ⟨i, fun k hk => (e1 k hk).trans (e2 k hk), lt_trans l1 l2⟩
    · exact ⟨j, fun k hk => (e1 k (lt_trans hk h)).trans (e2 k hk), by rw [e1 j h]; exact l2⟩
  have tot : ∀ x y : Arr n T, lt x y = true ∨ x = y ∨ lt y x = true := by
    intro x y
    by_cases he : x = y
    · exact Or.inr (Or.inl he)
    · -- first index where they differ
      have hex : ∃ m, ∃ h : m < n, x ⟨m, h⟩ ≠ y ⟨m, h⟩ := by
        by_contra hh
        apply he; funext i
        by_contra hne
        exact hh ⟨i.1, i.2, hne⟩
      classical
      have hs := Nat.find_spec hex
      have hm := fun k hk => Nat.find_min hex (m := k) hk
      obtain ⟨hlt, hne⟩ := hs
      have hpre : ∀ j : Fin n, j < ⟨Nat.find hex, hlt⟩ → x j = y j := by
        intro j hj
        by_contra hne
        exact hm j.1 hj ⟨j.2, hne⟩
      rcases lt_or_gt_of_ne hne with h | h
      · left; rw [C18_lt_lex]; exact ⟨_, hpre, h⟩
      · right; right; rw [C18_lt_lex]; exact ⟨_, fun j hj => (hpre j hj).symm, h⟩
  have asym : ∀ x y : Arr n T, lt x y = true → lt y x = false := by
    intro x y h
    by_contra hh
    rw [Bool.not_eq_false] at hh
    have := tr x y x h hh
    rw [irr x] at this; simp at this
  have heq := fun x y : Arr n T => (C18_eq x y).1
  refine ⟨irr x, tr x y z, tot x y, fun h => ⟨?_, asym x y h⟩, Iff.rfl, ?_, ?_⟩
  · rw [← Bool.not_eq_true]
    intro he
    have : x = y := (heq x y).1 he
    subst this; rw [irr x] at h; simp at h
  · rw [heq, le, Bool.not_eq_true']
    constructor
    · intro h; rcases tot x y with h' | h' | h'
      · exact Or.inl h'
      · exact Or.inr h'
      · rw [h] at h'; simp at h'
    · rintro (h | h)
      · exact asym x y h
      · subst h; exact irr x
  · rw [heq, ge, Bool.not_eq_true']
    constructor
    · intro h; rcases tot x y with h' | h' | h'
      · rw [h] at h'; simp at h'
      · exact Or.inr h'
      · exact Or.inl h'
    · rintro (h | h)
      · exact asym y x h
      · subst h; exact irr x

example : lt (![1, 5] : Arr 2 Int) ![2, 0] = true ∧ lt (![2, 0] : Arr 2 Int) ![2, 1] = true := by
  constructor <;> (rw [C18_lt_lex])
  · exact ⟨0, by simp, by decide⟩
  · exact ⟨1, by intro j hj; fin_cases j <;> simp_all, by decide⟩

/-! ## C19 -/

/-- **C19** The binary operators act elementwise, whatever the result held before. -/
theorem C19_elementwise {T : Type} (op : T → T → T) (un : T → T) (tmp x y : Arr n T) (v : T) (i : Fin n) :
    binOp op tmp x y i = op (x i) (y i) ∧ binScalRight op tmp x v i = op (x i) v ∧
    binScalLeft op tmp v x i = op v (x i) ∧ neg un tmp x i = un (x i) :=
  ⟨congrFun (forLoop_fill (fun i => op (x i) (y i)) tmp) i,
   congrFun (forLoop_fill (fun i => op (x i) v) tmp) i,
   congrFun (forLoop_fill (fun i => op v (x i)) tmp) i,
   congrFun (forLoop_fill (fun i => un (x i)) tmp) i⟩

/-- **C19** The free `+` and `-` of dimensioned arrays are elementwise. -/
theorem C19_dimensioned {T : Type} (op : T → T → T) (x y : Arr n T) (i : Fin n) :
    dimOp op x y i = op (x i) (y i) := (C16_dimensioned_partial op x y (.element i)).1 i

/-- **C19** Over a field the operators are those of the vector space of functions. -/
theorem C19_vector_space {T : Type} [Field T] (tmp x y : Arr n T) (c : T) :
    binOp (· + ·) tmp x y = x + y ∧ binOp (· - ·) tmp x y = x - y ∧
    binScalLeft (· * ·) tmp c x = c • x ∧ binScalRight (· * ·) tmp x c = c • x ∧
    neg (- ·) tmp x = -x ∧ binOp (· * ·) tmp x y = x * y ∧ binOp (· / ·) tmp x y = x / y := by
  refine ⟨?_, ?_, ?_, ?_, ?_, ?_, ?_⟩ <;> funext i
  · exact (C19_elementwise _ id _ _ _ c _).1
  · exact (C19_elementwise _ id _ _ _ c _).1
  · exact (C19_elementwise _ id _ _ y c _).2.2.1
  · rw [(C19_elementwise _ id _ _ y c _).2.1, mul_comm]; rfl
  · exact (C19_elementwise (· + ·) (- ·) _ _ y c _).2.2.2
  · exact (C19_elementwise _ id _ _ _ c _).1
  · exact (C19_elementwise _ id _ _ _ c _).1

/-- **C19** Consequently the operators obey the vector-space laws. -/
theorem C19_laws {T : Type} [Field T] (t1 t2 t3 t4 x y z : Arr n T) (a b : T) :
    binOp (· + ·) t1 x y = binOp (· + ·) t2 y x ∧
    binOp (· + ·) t1 (binOp (· + ·) t2 x y) z = binOp (· + ·) t3 x (binOp (· + ·) t4 y z) ∧
    binOp (· - ·) t1 (binOp (· + ·) t2 x y) y = x ∧
    binScalLeft (· * ·) t1 a (binOp (· + ·) t2 x y)
      = binOp (· + ·) t1 (binScalLeft (· * ·) t2 a x) (binScalLeft (· * ·) t3 a y) ∧
    binScalLeft (· * ·) t1 (a + b) x
      = binOp (· + ·) t1 (binScalLeft (· * ·) t2 a x) (binScalLeft (· * ·) t3 b x) ∧
    binScalLeft (· * ·) t1 a (binScalLeft (· * ·) t2 b x) = binScalLeft (· * ·) t3 (a * b) x := by
  have add := fun t x y => (C19_vector_space (n := n) t x y (0 : T)).1
  have sub := fun t x y => (C19_vector_space (n := n) t x y (0 : T)).2.1
  have smul := fun t c x => (C19_vector_space (n := n) (T := T) t x x c).2.2.1
  simp only [add, sub, smul]
  exact ⟨add_comm _ _, add_assoc _ _ _, add_sub_cancel_right _ _, smul_add _ _ _, add_smul _ _ _,
    smul_smul _ _ _⟩

/-- **C19** Assigning a list of the right length sets every element; any other length is
rejected by the assertion. -/
theorem C19_from_list {T : Type} (l : List T) (x : Arr n T) :
    (∀ h : l.length = n, fromList l x = .ok fun i => l[i.1]'(by omega)) ∧
    (l.length ≠ n → fromList l x = .assertFail) := by
  constructor
  · intro h
    unfold fromList
    simp only [h, beq_self_eq_true, Outcome.assert_true, Outcome.bind_ok]
    congr 1
    have := forLoop_rel (b1 := fun (i : Fin n) (x : Arr n T) => match l[i.1]? with | some v => upd x i v | none => x)
      (b2 := fun (i : Fin n) (x : Arr n T) => upd x i (l[i.1]'(by omega))) (s := x) (t := x) (fun a b => a = b) rfl
      (fun i s t h => by subst h; rw [List.getElem?_eq_getElem (show i.1 < l.length by omega)])
    exact this.trans (forLoop_fill (fun i : Fin n => l[i.1]'(by omega)) x)
  · intro h
    have : (l.length == n) = false := by simp [h]
    simp [fromList, this]

/-! ## C05 -/

/-- **C05** `math::array`: `at` returns the element or throws `out_of_range`; `[]` and `()`
return the element or fail their assertion. -/
theorem C05_math_array {T : Type} (x : Arr n T) (i : Nat) :
    (∀ h : i < n, at' x i = .ok (x ⟨i, h⟩) ∧ get x i = .ok (x ⟨i, h⟩)) ∧
    (n ≤ i → at' x i = .outOfRange ∧ get x i = .assertFail) := by
  constructor
  · intro h; simp [at', get, h]
  · intro h; simp [at', get, h]

/-- **C05** `empty()` of `math::array` never says yes: it is right, in that it is true exactly when no
index can be read, if and only if the array has at least one element. -/
theorem C05_math_array_empty {T : Type} (x : Arr n T) :
    empty x = false ∧ ((empty x = true ↔ ∀ i, at' x i = .outOfRange) ↔ n ≠ 0) := by
  refine ⟨rfl, ⟨fun h e => ?_, fun hn => ⟨fun h => by simp [empty] at h, fun h => ?_⟩⟩⟩
  · subst e
    have := h.2 fun i => ((C05_math_array x i).2 (Nat.zero_le i)).1
    simp [empty] at this
  · have := h 0
    rw [((C05_math_array x 0).1 (by omega)).1] at this
    simp at this

end Verif.MathArray
