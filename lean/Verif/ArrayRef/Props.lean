import Verif.ArrayRef.Model

/-!
# C06 (array_ref) and the array_ref / const_string part of C05
-/

namespace Verif.ArrayRef

/-! Specification: a narrowing operation on a plain sequence. -/
namespace Spec

/-- the operation is within its documented range (counts of the removing operations do
not exceed the size; `substr` accepts anything) -/
def allowed (xs : List T) : Op → Prop
  | .substr _ _ => True
  | .removePrefix n => n ≤ xs.length
  | .removeSuffix n => n ≤ xs.length
  | .popFront => 1 ≤ xs.length
  | .popBack => 1 ≤ xs.length

/-- the elements viewed after the operation -/
def result (xs : List T) : Op → List T
  | .substr pos n => (xs.drop pos).take n
  | .removePrefix n => xs.drop n
  | .removeSuffix n => xs.take (xs.length - n)
  | .popFront => xs.tail
  | .popBack => xs.dropLast

/-- operations each allowed where it is made, and the elements viewed in the end -/
inductive History : List T → List Op → List T → Prop
  | nil (xs) : History xs [] xs
  | cons {xs op ops ys} : allowed xs op → History (result xs op) ops ys → History xs (op :: ops) ys

end Spec

theorem substr_eq (r : Ref) (pos n : Nat) :
    substr r pos n = ⟨r.off + min pos r.len, min n (r.len - min pos r.len)⟩ := by
  fun_induction substr r pos n with
  | case1 pos n h ih => rw [ih]; congr 2 <;> omega
  | case2 pos n h1 h2 ih => rw [ih]; congr 1; omega
  | case3 pos n h1 h2 => congr 1 <;> omega

theorem vecLoop_ok (base : List T) : ∀ (n i : Nat), i + n ≤ base.length →
    vecLoop base i n = .ok ((base.drop i).take n) := by
  intro n
  induction n with
  | zero => intro i h; simp [vecLoop]
  | succ n ih =>
    intro i h
    have hi : i < base.length := by omega
    simp only [vecLoop, deref, List.getElem?_eq_getElem hi, Outcome.bind_ok]
    rw [ih _ (by omega)]
    simp only [Outcome.bind_ok]
    rw [List.drop_eq_getElem_cons hi, List.take_succ_cons]

/-- one step, in the form needed for the induction -/
theorem step_sim (base : List T) (r : Ref) (xs : List T) (op : Op)
    (hr : r.off + r.len ≤ base.length) (hx : xs = (base.drop r.off).take r.len)
    (ha : Spec.allowed xs op) :
    ∃ r', step r op = .ok r' ∧ r'.off + r'.len ≤ r.off + r.len ∧ r.off ≤ r'.off ∧
      Spec.result xs op = (base.drop r'.off).take r'.len := by
  have hl : xs.length = r.len := by rw [hx]; simp; omega
  cases op with
  | substr pos n =>
    refine ⟨_, rfl, by rw [substr_eq]; dsimp; omega, by rw [substr_eq]; dsimp; omega, ?_⟩
    rw [substr_eq, hx]
    simp only [Spec.result]
    apply List.ext_getElem?
    intro k
    simp only [List.getElem?_take, List.getElem?_drop]
    grind
  | removePrefix n =>
    simp only [Spec.allowed, hl] at ha
    refine ⟨⟨r.off + n, r.len - n⟩, by simp [step, removePrefix, ha], by dsimp; omega, by dsimp; omega, ?_⟩
    rw [hx]; simp only [Spec.result, List.drop_take, List.drop_drop]
  | removeSuffix n =>
    simp only [Spec.allowed, hl] at ha
    refine ⟨⟨r.off, r.len - n⟩, by simp [step, removeSuffix, ha], by dsimp; omega, by dsimp; omega, ?_⟩
    simp only [Spec.result, hl]
    rw [hx, List.take_take]; congr 1; omega
  | popFront =>
    simp only [Spec.allowed, hl] at ha
    refine ⟨⟨r.off + 1, r.len - 1⟩, by simp [step, popFront, removePrefix, ha], by dsimp; omega, by dsimp; omega, ?_⟩
    rw [hx]; simp only [Spec.result, ← List.drop_one, List.drop_take, List.drop_drop]
  | popBack =>
    simp only [Spec.allowed, hl] at ha
    refine ⟨⟨r.off, r.len - 1⟩, by simp [step, popBack, removeSuffix, ha], by dsimp; omega, by dsimp; omega, ?_⟩
    simp only [Spec.result, List.dropLast_eq_take, hl]
    rw [hx, List.take_take]; congr 1; omega

/-- **C06** Any chain of narrowing operations on a view of `base`, each within its
documented range, succeeds; the final view lies inside the original array (no operation
changes the array), reading it out gives exactly the sequence the operations describe, and
`at` is exact and checked. -/
theorem C06_views_stay_inside {T : Type} (base : List T) (ops : List Op) (ys : List T)
    (h : Spec.History base ops ys) :
    ∃ r, run (ofBase base) ops = .ok r ∧ r.off + r.len ≤ base.length ∧ r.len = ys.length ∧
      vec base r = .ok ys ∧
      (∀ i, at' base r i = match ys[i]? with | some x => .ok x | none => .outOfRange) := by
  have gen : ∀ (ops : List Op) (r : Ref) (xs : List T), r.off + r.len ≤ base.length →
      xs = (base.drop r.off).take r.len → Spec.History xs ops ys →
      ∃ r', run r ops = .ok r' ∧ r'.off + r'.len ≤ base.length ∧
        ys = (base.drop r'.off).take r'.len := by
    intro ops
    induction ops with
    | nil => intro r xs hr hx h; cases h; exact ⟨r, rfl, hr, hx⟩
    | cons op ops ih =>
      intro r xs hr hx h
      cases h with
      | cons ha ht =>
        obtain ⟨r', e, hb, _, hx'⟩ := step_sim base r xs op hr hx ha
        obtain ⟨r'', e', h1, h2⟩ := ih r' _ (by omega) hx' ht
        exact ⟨r'', by simp [run, e, e'], h1, h2⟩
  obtain ⟨r, e, hb, hy⟩ := gen ops (ofBase base) base (by simp [ofBase]) (by simp [ofBase]) h
  refine ⟨r, e, hb, by rw [hy]; simp; omega, by rw [vec, vecLoop_ok _ _ _ hb, hy], ?_⟩
  intro i
  rw [hy, List.getElem?_take]
  unfold at' deref
  by_cases hi : i < r.len
  · rw [if_neg (by omega), if_pos hi, List.getElem?_drop]
    rw [List.getElem?_eq_getElem (by omega)]
  · rw [if_pos (by omega), if_neg hi]

example : Spec.History [1, 2, 3, 4, 5] [.substr 1 100, .popBack, .removePrefix 1] [3, 4] := by
  repeat (first | exact .nil _ | refine .cons (by simp [Spec.allowed, Spec.result]) ?_)

/-- **C06** Unchecked access after any chain of narrowing operations: `operator[]` returns the
element of the described sequence at every index inside it, `front` its first and `back` its
last element; `back` of an empty view is undefined. -/
theorem C06_element_access {T : Type} (base : List T) (ops : List Op) (ys : List T)
    (h : Spec.History base ops ys) :
    ∃ r, run (ofBase base) ops = .ok r ∧
      (∀ i x, ys[i]? = some x → get base r i = .ok x) ∧
      (∀ x, ys.head? = some x → front base r = .ok x) ∧
      (∀ x, ys.getLast? = some x → back base r = .ok x) ∧
      (ys = [] → back base r = .ub) := by
  obtain ⟨r, e, hb, hl, _, hat⟩ := C06_views_stay_inside base ops ys h
  have hget : ∀ i x, ys[i]? = some x → deref base (r.off + i) = .ok x := by
    intro i x hx
    have := hat i
    rw [hx] at this
    have hi : i < ys.length := (List.getElem?_eq_some_iff.1 hx).1
    rwa [at', if_neg (by omega)] at this
  refine ⟨r, e, hget, fun x hx => ?_, fun x hx => ?_, fun hy => ?_⟩
  · rw [List.head?_eq_getElem?] at hx
    exact hget 0 x hx
  · rw [List.getLast?_eq_getElem?] at hx
    have hi := (List.getElem?_eq_some_iff.1 hx).1
    rw [back, if_neg (by omega), hl]
    exact hget _ x hx
  · rw [back, if_pos (by rw [hl, hy]; rfl)]

/-- a three-element view in the middle of an array, with all accesses defined -/
example : run (ofBase [1, 2, 3, 4, 5]) [.popFront, .popBack] = .ok ⟨1, 3⟩ ∧
    get [1, 2, 3, 4, 5] ⟨1, 3⟩ 1 = .ok 3 ∧ front [1, 2, 3, 4, 5] ⟨1, 3⟩ = .ok 2 ∧
    back [1, 2, 3, 4, 5] ⟨1, 3⟩ = .ok 4 := by
  refine ⟨rfl, rfl, rfl, rfl⟩

/-- **C06** Removing more than there is, is rejected by the assertion. -/
theorem C06_excess_removal_rejected (r : Ref) (n : Nat) (h : r.len < n) :
    removePrefix r n = .assertFail ∧ removeSuffix r n = .assertFail := by
  simp [removePrefix, removeSuffix, show ¬ n ≤ r.len by omega]

/-- **C05** `array_ref::at` on any view inside its array. -/
theorem C05_array_ref_at {T : Type} (base : List T) (r : Ref) (hr : r.off + r.len ≤ base.length)
    (i : Nat) :
    (i < r.len → ∃ x, base[r.off + i]? = some x ∧ at' base r i = .ok x) ∧
    (r.len ≤ i → at' base r i = .outOfRange) := by
  refine ⟨fun h => ⟨base[r.off + i], ?_, ?_⟩, fun h => by simp [at', h]⟩
  · rw [List.getElem?_eq_getElem]
  · unfold at' deref; rw [if_neg (by omega), List.getElem?_eq_getElem (by omega)]

example : ∃ r : Ref, r.off + r.len ≤ [10, 20, 30].length ∧ 1 < r.len := ⟨⟨1, 2⟩, by simp, by simp⟩

/-- **C05** `const_string`: every index below the size yields the character, every other
index throws; the terminating NUL is never returned. -/
theorem C05_const_string (s : List Char) (n : Nat) :
    constStringAt (s ++ [Char.ofNat 0]) n =
      match s[n]? with | some c => .ok c | none => .outOfRange := by
  unfold constStringAt deref
  by_cases h : n < s.length
  · simp [h, List.getElem?_append]
  · simp [h]

end Verif.ArrayRef
