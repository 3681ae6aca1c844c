import Verif.MultiArray.Arith
import Verif.MultiArray.Props
import Mathlib.Algebra.Field.Basic
import Mathlib.Algebra.Field.Rat
import Mathlib.Order.Defs.LinearOrder

/-!
# Properties of the operators of `multi_array`

Everything is stated at index tuples, through the element access `a(i, j, …)` whose properties are
`C20`.
-/

namespace Verif.MultiArray
open Spec

section
variable {T : Type}

/-- an array of the shape -/
def Shaped (dims : List Nat) (x : List T) : Prop := x.length = elements dims

theorem load_eq (x : List T) (i : Nat) (h : i < x.length) : load x i = .ok x[i] := by simp [load, h]

theorem flat_eq (dims : List Nat) (x : List T) (hx : Shaped dims x) (i : Nat) (h : i < x.length) :
    flat dims x i = .ok x[i] := by
  rw [flat, if_pos (by rw [← hx]; exact h), load_eq x i h]

/-- a loop that stores `g i` at `i`, whatever has been stored before -/
theorem storeLoop_fill (body : Nat → List T → Outcome T) (a : List T) (g : (i : Nat) → i < a.length → T)
    (hb : ∀ (i : Nat) (hi : i < a.length) (e : List T), e.length = a.length →
      (∀ j (hj : j < a.length) (hj' : j < e.length), e[j] = if j < i then g j hj else a[j]) → body i e = .ok (g i hi)) :
    ∃ r, storeLoop body a 0 a.length = .ok r ∧ r.length = a.length ∧
      ∀ i (hi : i < a.length) (hr : i < r.length), r[i] = g i hi := by
  have key : ∀ (k i : Nat) (e : List T), i + k = a.length → e.length = a.length →
      (∀ j (hj : j < a.length) (hj' : j < e.length), e[j] = if j < i then g j hj else a[j]) →
      ∃ r, storeLoop body e i k = .ok r ∧ r.length = a.length ∧
        ∀ i (hi : i < a.length) (hr : i < r.length), r[i] = g i hi := by
    intro k
    induction k with
    | zero =>
      intro i e hk he h
      exact ⟨e, rfl, he, fun j hj hr => by rw [h j hj hr, if_pos (by omega)]⟩
    | succ k ih =>
      intro i e hk he h
      have hi : i < a.length := by omega
      rw [storeLoop, hb i hi e he h, Outcome.bind_ok, store, if_pos (by omega), Outcome.bind_ok]
      refine ih (i + 1) _ (by omega) (by simpa using he) fun j hj hj' => ?_
      rw [List.getElem_set]
      by_cases hij : i = j
      · subst hij; rw [if_pos rfl, if_pos (by omega)]
      · rw [if_neg hij, h j hj (by simpa using hj')]
        by_cases hlt : j < i
        · rw [if_pos hlt, if_pos (by omega)]
        · rw [if_neg hlt, if_neg (by omega)]
  exact key a.length 0 a (by omega) rfl fun j hj _ => by simp

/-- the value at an index tuple -/
theorem call_at (dims : List Nat) (x : List T) (hx : Shaped dims x) (ids : List Nat) (h : InRange ids dims) :
    ∃ hlt : rank ids dims < x.length, call dims x ids = .ok x[rank ids dims] :=
  (access_eq dims x hx ids h).imp fun _ h => h.1

theorem rank_inj (dims a b : List Nat) (ha : InRange a dims) (hb : InRange b dims) (e : rank a dims = rank b dims) :
    a = b := by
  by_contra hne
  rcases before_total a b dims ha hb hne with h | h
  · have := rank_before a b dims ha hb h; omega
  · have := rank_before b a dims hb ha h; omega

theorem rank_lt_iff (dims a b : List Nat) (ha : InRange a dims) (hb : InRange b dims) :
    Before a b ↔ rank a dims < rank b dims := by
  refine ⟨rank_before a b dims ha hb, fun h => ?_⟩
  by_cases e : a = b
  · subst e; omega
  · rcases before_total a b dims ha hb e with h' | h'
    · exact h'
    · have := rank_before b a dims hb ha h'; omega

theorem position (dims : List Nat) (x : List T) (hx : Shaped dims x) (i : Nat) (hi : i < x.length) :
    ∃ ids, InRange ids dims ∧ rank ids dims = i :=
  rank_surj dims i (by rw [← elements_count, ← hx]; exact hi)

/-- a result whose values at the storage positions are known, read at index tuples -/
theorem lift {dims : List Nat} {a r : List T} (ha : Shaped dims a) (hl : r.length = a.length)
    (g : (i : Nat) → i < a.length → T) (hr : ∀ i (hi : i < a.length) (hr : i < r.length), r[i] = g i hi)
    (ids : List Nat) (h : InRange ids dims) :
    ∃ hlt : rank ids dims < a.length, call dims r ids = .ok (g (rank ids dims) hlt) := by
  obtain ⟨h1, e1⟩ := call_at dims r (hl.trans ha) ids h
  exact ⟨hl ▸ h1, by rw [e1, hr _ (hl ▸ h1) h1]⟩

/-- **C91** Compound assignment with an array acts element by element, also when the array on the
right is the array assigned to. -/
theorem C91_assign (dims : List Nat) (op : T → T → T) (a : List T) (ha : Shaped dims a) (rhs : ArrArg T)
    (hr : ∀ y, rhs = .other y → Shaped dims y) :
    ∃ r, opAssign dims op a rhs = .ok r ∧ Shaped dims r ∧ ∀ ids, InRange ids dims →
      ∃ x y, call dims a ids = .ok x ∧ (match rhs with | .other b => call dims b ids | .self => call dims a ids) = .ok y ∧
        call dims r ids = .ok (op x y) := by
  have hlen : elements dims = a.length := ha.symm
  cases rhs with
  | other b =>
    have hb : b.length = a.length := (hr b rfl).trans hlen
    obtain ⟨r, h1, h2, h3⟩ := storeLoop_fill (fun i e => load e i >>= fun x => ArrArg.read e (.other b) i >>= fun y => .ok (op x y))
      a (fun i hi => op a[i] (b[i]'(hb ▸ hi))) (fun i hi e he h => by
        simp only [ArrArg.read]
        rw [load_eq e i (he ▸ hi), Outcome.bind_ok, load_eq b i (hb ▸ hi), Outcome.bind_ok, h i hi (he ▸ hi), if_neg (by omega)])
    refine ⟨r, by rw [opAssign, hlen]; exact h1, h2.trans ha, fun ids hi => ?_⟩
    obtain ⟨l1, e1⟩ := call_at dims a ha ids hi
    obtain ⟨l2, e2⟩ := call_at dims b (hr b rfl) ids hi
    obtain ⟨l3, e3⟩ := lift ha h2 _ h3 ids hi
    exact ⟨_, _, e1, e2, e3⟩
  | self =>
    obtain ⟨r, h1, h2, h3⟩ := storeLoop_fill (fun i e => load e i >>= fun x => ArrArg.read e (.self) i >>= fun y => .ok (op x y))
      a (fun i hi => op a[i] a[i]) (fun i hi e he h => by
        simp only [ArrArg.read]
        rw [load_eq e i (he ▸ hi), Outcome.bind_ok, Outcome.bind_ok, h i hi (he ▸ hi), if_neg (by omega)])
    refine ⟨r, by rw [opAssign, hlen]; exact h1, h2.trans ha, fun ids hi => ?_⟩
    obtain ⟨l1, e1⟩ := call_at dims a ha ids hi
    obtain ⟨l3, e3⟩ := lift ha h2 _ h3 ids hi
    exact ⟨_, _, e1, e1, e3⟩

example : Shaped [2, 2] [1, 2, 3, 4] ∧ opAssign [2, 2] (· + ·) [1, 2, 3, 4] .self = .ok [2, 4, 6, 8] ∧
    opAssign [2, 2] (· * ·) [1, 2, 3, 4] (.other [0, 1, 2, 3]) = .ok [0, 2, 6, 12] := by
  refine ⟨rfl, by decide, by decide⟩

/-- **C91** Compound assignment with a scalar that is no element of the array acts element by
element. -/
theorem C91_scalar_assign (dims : List Nat) (op : T → T → T) (a : List T) (ha : Shaped dims a) (v : T) :
    ∃ r, scalAssign dims op a (.value v) = .ok r ∧ Shaped dims r ∧ ∀ ids, InRange ids dims →
      ∃ x, call dims a ids = .ok x ∧ call dims r ids = .ok (op x v) := by
  have hlen : elements dims = a.length := ha.symm
  obtain ⟨r, h1, h2, h3⟩ := storeLoop_fill (fun i e => load e i >>= fun x => ScalArg.read e (.value v) >>= fun y => .ok (op x y))
    a (fun i hi => op a[i] v) (fun i hi e he h => by
      rw [load_eq e i (he ▸ hi), Outcome.bind_ok, ScalArg.read, Outcome.bind_ok, h i hi (he ▸ hi), if_neg (by omega)])
  refine ⟨r, by rw [scalAssign, hlen]; exact h1, h2.trans ha, fun ids hi => ?_⟩
  obtain ⟨l1, e1⟩ := call_at dims a ha ids hi
  obtain ⟨l3, e3⟩ := lift ha h2 _ h3 ids hi
  exact ⟨_, e1, e3⟩

example : scalAssign [2, 3] (· - ·) ([1, 2, 3, 4, 5, 6] : List Int) (.value 2) = .ok [-1, 0, 1, 2, 3, 4] := by decide

/-- **C91** Compound assignment with an element of the array itself, exactly: the elements up to and
including that one are combined with its old value, the later ones with its new value. -/
theorem C91_scalar_alias (dims : List Nat) (op : T → T → T) (a : List T) (ha : Shaped dims a) (kids : List Nat)
    (hk : InRange kids dims) :
    ∃ r v, scalAssign dims op a (.element (rank kids dims)) = .ok r ∧ Shaped dims r ∧ call dims a kids = .ok v ∧
      ∀ ids, InRange ids dims → ∃ x, call dims a ids = .ok x ∧
        (¬ Before kids ids → call dims r ids = .ok (op x v)) ∧
        (Before kids ids → call dims r ids = .ok (op x (op v v))) := by
  have hlen : elements dims = a.length := ha.symm
  obtain ⟨lk, ek⟩ := call_at dims a ha kids hk
  generalize hk0 : rank kids dims = k at *
  obtain ⟨r, h1, h2, h3⟩ := storeLoop_fill (fun i e => load e i >>= fun x => ScalArg.read e (.element k) >>= fun y => .ok (op x y))
    a (fun i hi => op a[i] (if i ≤ k then a[k] else op a[k] a[k])) (fun i hi e he h => by
      rw [load_eq e i (he ▸ hi), Outcome.bind_ok, ScalArg.read, load_eq e k (he ▸ lk), Outcome.bind_ok,
        h i hi (he ▸ hi), if_neg (by omega), h k lk (he ▸ lk)]
      by_cases hik : i ≤ k
      · rw [if_neg (by omega), if_pos hik]
      · rw [if_pos (by omega), if_neg hik, if_pos (le_refl k)])
  refine ⟨r, a[k], by rw [scalAssign, hlen]; exact h1, h2.trans ha, ek, fun ids hi => ?_⟩
  obtain ⟨l1, e1⟩ := call_at dims a ha ids hi
  obtain ⟨l3, e3⟩ := lift ha h2 _ h3 ids hi
  have hb := rank_lt_iff dims kids ids hk hi
  rw [hk0] at hb
  refine ⟨_, e1, fun hn => ?_, fun hy => ?_⟩
  · rw [hb] at hn; rw [e3, if_pos (by omega)]
  · rw [hb] at hy; rw [e3, if_neg (by omega)]

example : InRange [0, 1] [2, 2] ∧ Before [0, 1] [1, 0] ∧ rank [0, 1] [2, 2] = 1 ∧
    scalAssign [2, 2] (· + ·) [1, 10, 100, 1000] (.element 1) = .ok [11, 20, 120, 1020] := by
  refine ⟨by simp [InRange], by simp [Before], by decide, by decide⟩

/-- **C91** fails for a scalar that is an element of the array: `m += m(0,0)` adds different values
to different elements. -/
theorem C91_scalar_alias_fails :
    ∃ (dims : List Nat) (a r : List Int), Shaped dims a ∧ scalAssign dims (· + ·) a (.element 0) = .ok r ∧
      r ≠ a.map (· + a[0]!) :=
  ⟨[2, 2], [1, 1, 1, 1], [2, 3, 3, 3], rfl, by decide, by decide⟩

/-- **C91** Fill sets every element, also when the value is an element of the array; conversion
assignment and unary minus act element by element. -/
theorem C91_fill (dims : List Nat) (a : List T) (ha : Shaped dims a) (kids : List Nat) (hk : InRange kids dims) (v : T) :
    (∃ r, fill dims a (.value v) = .ok r ∧ Shaped dims r ∧ ∀ ids, InRange ids dims → call dims r ids = .ok v) ∧
    ∃ r w, fill dims a (.element (rank kids dims)) = .ok r ∧ Shaped dims r ∧ call dims a kids = .ok w ∧
      ∀ ids, InRange ids dims → call dims r ids = .ok w := by
  have hlen : elements dims = a.length := ha.symm
  constructor
  · obtain ⟨r, h1, h2, h3⟩ := storeLoop_fill (fun _ e => ScalArg.read e (.value v)) a (fun _ _ => v) (fun i hi e he h => rfl)
    refine ⟨r, by rw [fill, hlen]; exact h1, h2.trans ha, fun ids hi => ?_⟩
    obtain ⟨l3, e3⟩ := lift ha h2 _ h3 ids hi
    exact e3
  · obtain ⟨lk, ek⟩ := call_at dims a ha kids hk
    generalize rank kids dims = k at *
    obtain ⟨r, h1, h2, h3⟩ := storeLoop_fill (fun _ e => ScalArg.read e (.element k)) a (fun _ _ => a[k]) (fun i hi e he h => by
      rw [ScalArg.read, load_eq e k (he ▸ lk), h k lk (he ▸ lk)]; simp)
    refine ⟨r, a[k], by rw [fill, hlen]; exact h1, h2.trans ha, ek, fun ids hi => ?_⟩
    obtain ⟨l3, e3⟩ := lift ha h2 _ h3 ids hi
    exact e3

/-- **C91** The binary operators act element by element, with a scalar on either side, and so do
unary minus and the assignment from an array of another element type. -/
theorem C91_binary {U : Type} (dims : List Nat) (op : T → T → T) (un : T → T) (conv : U → T) (tmp a b : List T) (c : List U)
    (ht : Shaped dims tmp) (ha : Shaped dims a) (hb : Shaped dims b) (hc : Shaped dims c) (v : T) :
    ∃ r1 r2 r3 r4 r5, binOp dims op tmp a b = .ok r1 ∧ binScalRight dims op tmp a v = .ok r2 ∧
      binScalLeft dims op tmp v a = .ok r3 ∧ neg dims un tmp a = .ok r4 ∧ convAssign dims conv tmp c = .ok r5 ∧
      Shaped dims r1 ∧ Shaped dims r2 ∧ Shaped dims r3 ∧ Shaped dims r4 ∧ Shaped dims r5 ∧
      ∀ ids, InRange ids dims → ∃ x y z, call dims a ids = .ok x ∧ call dims b ids = .ok y ∧ call dims c ids = .ok z ∧
        call dims r1 ids = .ok (op x y) ∧ call dims r2 ids = .ok (op x v) ∧ call dims r3 ids = .ok (op v x) ∧
        call dims r4 ids = .ok (un x) ∧ call dims r5 ids = .ok (conv z) := by
  have hlen : elements dims = tmp.length := ht.symm
  have la : a.length = tmp.length := ha.trans hlen
  have lb : b.length = tmp.length := hb.trans hlen
  have lc : c.length = tmp.length := hc.trans hlen
  obtain ⟨r1, p1, q1, s1⟩ := storeLoop_fill (fun i _ => flat dims a i >>= fun x => flat dims b i >>= fun y => .ok (op x y))
    tmp (fun i hi => op (a[i]'(la ▸ hi)) (b[i]'(lb ▸ hi))) (fun i hi e he h => by
      rw [flat_eq dims a ha i (la ▸ hi), Outcome.bind_ok, flat_eq dims b hb i (lb ▸ hi), Outcome.bind_ok])
  obtain ⟨r2, p2, q2, s2⟩ := storeLoop_fill (fun i _ => flat dims a i >>= fun x => .ok (op x v))
    tmp (fun i hi => op (a[i]'(la ▸ hi)) v) (fun i hi e he h => by
      rw [flat_eq dims a ha i (la ▸ hi), Outcome.bind_ok])
  obtain ⟨r3, p3, q3, s3⟩ := storeLoop_fill (fun i _ => flat dims a i >>= fun x => .ok (op v x))
    tmp (fun i hi => op v (a[i]'(la ▸ hi))) (fun i hi e he h => by
      rw [flat_eq dims a ha i (la ▸ hi), Outcome.bind_ok])
  obtain ⟨r4, p4, q4, s4⟩ := storeLoop_fill (fun i _ => load a i >>= fun x => .ok (un x))
    tmp (fun i hi => un (a[i]'(la ▸ hi))) (fun i hi e he h => by
      rw [load_eq a i (la ▸ hi), Outcome.bind_ok])
  obtain ⟨r5, p5, q5, s5⟩ := storeLoop_fill (fun i _ => load c i >>= fun x => .ok (conv x))
    tmp (fun i hi => conv (c[i]'(lc ▸ hi))) (fun i hi e he h => by
      rw [load_eq c i (lc ▸ hi), Outcome.bind_ok])
  refine ⟨r1, r2, r3, r4, r5, by rw [binOp, hlen]; exact p1, by rw [binScalRight, hlen]; exact p2,
    by rw [binScalLeft, hlen]; exact p3, by rw [neg, hlen]; exact p4, by rw [convAssign, hlen]; exact p5,
    q1.trans ht, q2.trans ht, q3.trans ht, q4.trans ht, q5.trans ht, fun ids hi => ?_⟩
  obtain ⟨_, ea⟩ := call_at dims a ha ids hi
  obtain ⟨_, eb⟩ := call_at dims b hb ids hi
  obtain ⟨_, ec⟩ := call_at dims c hc ids hi
  obtain ⟨_, e1⟩ := lift ht q1 _ s1 ids hi
  obtain ⟨_, e2⟩ := lift ht q2 _ s2 ids hi
  obtain ⟨_, e3⟩ := lift ht q3 _ s3 ids hi
  obtain ⟨_, e4⟩ := lift ht q4 _ s4 ids hi
  obtain ⟨_, e5⟩ := lift ht q5 _ s5 ids hi
  exact ⟨_, _, _, ea, eb, ec, e1, e2, e3, e4, e5⟩

example : binOp [2, 2] (· - ·) [0, 0, 0, 0] [1, 2, 3, 4] [4, 3, 2, 1] = .ok [-3, -1, 1, 3] ∧
    binScalLeft [2, 2] (· - ·) [0, 0, 0, 0] 1 [1, 2, 3, 4] = .ok [0, -1, -2, -3] ∧
    neg [2, 2] (fun x : Int => -x) [0, 0, 0, 0] [1, 2, 3, 4] = .ok [-1, -2, -3, -4] := by decide

/-- **C91** Dividing by a scalar divides every element, in every field (missing: integers, see
`C91_integer_division_fails`). -/
theorem C91_division_partial {T : Type} [Field T] (dims : List Nat) (tmp a : List T) (ht : Shaped dims tmp)
    (ha : Shaped dims a) (v : T) :
    ∃ r1 r2, divScal dims (· * ·) (· / ·) 1 tmp a v = .ok r1 ∧ divAssign dims (· * ·) (· / ·) 1 a (.value v) = .ok r2 ∧
      ∀ ids, InRange ids dims → ∃ x, call dims a ids = .ok x ∧ call dims r1 ids = .ok (x / v) ∧
        call dims r2 ids = .ok (x / v) := by
  have hlen : elements dims = tmp.length := ht.symm
  have la : a.length = tmp.length := ha.trans hlen
  obtain ⟨r1, p1, q1, s1⟩ := storeLoop_fill (fun i _ => flat dims a i >>= fun x => .ok (x * (1 / v)))
    tmp (fun i hi => (a[i]'(la ▸ hi)) * (1 / v)) (fun i hi e he h => by
      rw [flat_eq dims a ha i (la ▸ hi), Outcome.bind_ok])
  obtain ⟨r2, p2, q2, s2⟩ := storeLoop_fill (fun i e => load e i >>= fun x => .ok (x * (1 / v)))
    a (fun i hi => a[i] * (1 / v)) (fun i hi e he h => by
      rw [load_eq e i (he ▸ hi), Outcome.bind_ok, h i hi (he ▸ hi), if_neg (by omega)])
  refine ⟨r1, r2, by rw [divScal, hlen]; exact p1, ?_, fun ids hi => ?_⟩
  · rw [divAssign, ScalArg.read, Outcome.bind_ok, hlen, ← la]; exact p2
  · obtain ⟨_, ea⟩ := call_at dims a ha ids hi
    obtain ⟨_, e1⟩ := lift ht q1 _ s1 ids hi
    obtain ⟨_, e2⟩ := lift ha q2 _ s2 ids hi
    exact ⟨_, ea, by rw [e1, mul_one_div], by rw [e2, mul_one_div]⟩

example : Shaped [2, 1] ([3, 4] : List ℚ) := rfl

/-- **C91** fails for integers: dividing by 2 gives zeros. -/
theorem C91_integer_division_fails :
    divScal [2, 2] (· * ·) Int.tdiv 1 [9, 9, 9, 9] [4, 6, 8, 10] 2 = .ok [0, 0, 0, 0] ∧
    divAssign [2, 2] (· * ·) Int.tdiv 1 [4, 6, 8, 10] (.value 2) = .ok [0, 0, 0, 0] := by decide

/-- **C91** exactly, for integers: dividing by `v` divides every element if and only if `v` is one or minus one or every
element is less than `v` in size -/
theorem C91_integer_division_iff (dims : List Nat) (tmp a : List Int) (ht : Shaped dims tmp) (ha : Shaped dims a) (v : Int)
    (hv : v ≠ 0) :
    ∃ r1 r2, divScal dims (· * ·) Int.tdiv 1 tmp a v = .ok r1 ∧ divAssign dims (· * ·) Int.tdiv 1 a (.value v) = .ok r2 ∧
      r1 = r2 ∧ (r1 = a.map (Int.tdiv · v) ↔ v.natAbs = 1 ∨ ∀ x ∈ a, x.natAbs < v.natAbs) := by
  have hlen : elements dims = tmp.length := ht.symm
  have la : a.length = tmp.length := ha.trans hlen
  obtain ⟨r1, p1, q1, s1⟩ := storeLoop_fill (fun i _ => flat dims a i >>= fun x => .ok (x * (Int.tdiv 1 v)))
    tmp (fun i hi => (a[i]'(la ▸ hi)) * (Int.tdiv 1 v)) (fun i hi e he h => by
      rw [flat_eq dims a ha i (la ▸ hi), Outcome.bind_ok])
  obtain ⟨r2, p2, q2, s2⟩ := storeLoop_fill (fun i e => load e i >>= fun x => .ok (x * (Int.tdiv 1 v)))
    a (fun i hi => a[i] * (Int.tdiv 1 v)) (fun i hi e he h => by
      rw [load_eq e i (he ▸ hi), Outcome.bind_ok, h i hi (he ▸ hi), if_neg (by omega)])
  have e1 : r1 = a.map (· * Int.tdiv 1 v) := by
    apply List.ext_getElem (by simp [q1, la])
    intro i h1 h2
    rw [s1 i (by omega) h1]; simp
  have e2 : r2 = a.map (· * Int.tdiv 1 v) := by
    apply List.ext_getElem (by simp [q2])
    intro i h1 h2
    rw [s2 i (by omega) h1]; simp
  refine ⟨r1, r2, by rw [divScal, hlen]; exact p1, ?_, e1.trans e2.symm, ?_⟩
  · rw [divAssign, ScalArg.read, Outcome.bind_ok, hlen, ← la]; exact p2
  · rw [e1, List.map_inj_left]
    by_cases h1 : v.natAbs = 1
    · simp only [h1, true_or, iff_true]
      intro x _
      rcases Int.natAbs_eq v with h | h <;> rw [h, h1] <;> simp
    · have h0 : Int.tdiv 1 v = 0 := by
        apply Int.natAbs_eq_zero.mp
        rw [Int.natAbs_tdiv]
        exact Nat.div_eq_of_lt (by have := Int.natAbs_pos.mpr hv; simp; omega)
      simp only [h1, false_or, h0, mul_zero]
      refine forall₂_congr fun x _ => ?_
      rw [eq_comm, ← Int.natAbs_eq_zero, Int.natAbs_tdiv]
      change x.natAbs / v.natAbs = 0 ↔ _
      rw [Nat.div_eq_zero_iff]
      omega

example : divScal [2] (· * ·) Int.tdiv 1 [0, 0] [4, -6] (-1) = .ok [-4, 6] ∧
    divScal [2] (· * ·) Int.tdiv 1 [0, 0] [4, -6] 7 = .ok [0, 0] := by decide

/-- **C91** exactly, for a scalar that is an element of the array: right if and only if using the new value instead of the
old one makes no difference to the elements after it -/
theorem C91_scalar_alias_iff (dims : List Nat) (op : T → T → T) (a : List T) (ha : Shaped dims a) (k : Nat) (hk : k < a.length) :
    ∃ r, scalAssign dims op a (.element k) = .ok r ∧
      (r = a.map (op · a[k]) ↔ ∀ i (h : i < a.length), k < i → op a[i] (op a[k] a[k]) = op a[i] a[k]) := by
  have hlen : elements dims = a.length := ha.symm
  obtain ⟨r, h1, h2, h3⟩ := storeLoop_fill (fun i e => load e i >>= fun x => ScalArg.read e (.element k) >>= fun y => .ok (op x y))
    a (fun i hi => if k < i then op a[i] (op a[k] a[k]) else op a[i] a[k]) (fun i hi e he h => by
      simp only [ScalArg.read]
      rw [load_eq e i (he ▸ hi), Outcome.bind_ok, load_eq e k (he ▸ hk), Outcome.bind_ok, h i hi (he ▸ hi), if_neg (by omega),
        h k hk (he ▸ hk)]
      by_cases hki : k < i
      · simp [hki]
      · simp [hki])
  refine ⟨r, by rw [scalAssign, hlen]; exact h1, ?_⟩
  constructor
  · rintro he i hi hki
    have := h3 i hi (by omega)
    simp only [he, List.getElem_map, hki, if_true] at this
    exact this.symm
  · intro h
    apply List.ext_getElem (by simp [h2])
    intro i i1 i2
    have hi : i < a.length := by omega
    rw [h3 i hi i1]
    by_cases hki : k < i
    · simp [hki, h i hi hki]
    · simp [hki]

example : scalAssign [3] (· + ·) [1, 0, 5] (.element 1) = .ok [1, 0, 5] ∧
    scalAssign [3] (· + ·) [1, 2, 5] (.element 2) = .ok [6, 7, 10] ∧
    scalAssign [3] (· + ·) [1, 2, 5] (.element 1) = .ok [3, 4, 9] := by decide

theorem swapLoop_eq (a b x y : List T) (i k : Nat) (hx : x.length = i + k) (hy : y.length = i + k)
    (ha : a.length = i + k) (hb : b.length = i + k)
    (h1 : x.take i = b.take i) (h2 : y.take i = a.take i) (h3 : x.drop i = a.drop i) (h4 : y.drop i = b.drop i) :
    swapLoop x y i k = .ok (b, a) := by
  induction k generalizing i x y with
  | zero =>
    have e1 : x = b := by rw [← List.take_of_length_le (i := i) (l := x) (by omega), h1, List.take_of_length_le (by omega)]
    have e2 : y = a := by rw [← List.take_of_length_le (i := i) (l := y) (by omega), h2, List.take_of_length_le (by omega)]
    rw [swapLoop, e1, e2]
  | succ k ih =>
    have lx : i < x.length := by omega
    have ly : i < y.length := by omega
    have la : i < a.length := by omega
    have lb : i < b.length := by omega
    rw [List.drop_eq_getElem_cons lx, List.drop_eq_getElem_cons la, List.cons.injEq] at h3
    rw [List.drop_eq_getElem_cons ly, List.drop_eq_getElem_cons lb, List.cons.injEq] at h4
    rw [swapLoop, load_eq x i lx, Outcome.bind_ok, load_eq y i ly, Outcome.bind_ok, store, if_pos lx, Outcome.bind_ok,
      store, if_pos ly, Outcome.bind_ok]
    apply ih (i := i + 1)
    · simp; omega
    · simp; omega
    · omega
    · omega
    · rw [List.take_add_one, List.take_set, List.set_eq_of_length_le (by simp), h1, List.take_add_one, List.getElem?_set_self lx,
        List.getElem?_eq_getElem lb, h4.1]
    · rw [List.take_add_one, List.take_set, List.set_eq_of_length_le (by simp), h2, List.take_add_one, List.getElem?_set_self ly,
        List.getElem?_eq_getElem la, h3.1]
    · rw [List.drop_set_of_lt (by omega), h3.2]
    · rw [List.drop_set_of_lt (by omega), h4.2]

/-- **C91** Swap exchanges the contents of two arrays. -/
theorem C91_swap (dims : List Nat) (a b : List T) (ha : Shaped dims a) (hb : Shaped dims b) :
    swap dims a b = .ok (b, a) := by
  apply swapLoop_eq a b a b 0 (elements dims) <;> simp_all [Shaped]

example : swap [2] [1, 2] [3, 4] = .ok ([3, 4], [1, 2]) := by decide

/-! ## assign -/

theorem assignFrom_eq (e vs : List T) (i : Nat) :
    assignFrom e i vs = if i + vs.length ≤ e.length ∨ vs = [] then .ok (e.take i ++ vs ++ e.drop (i + vs.length)) else .ub := by
  induction vs generalizing e i with
  | nil => simp [assignFrom]
  | cons v vs ih =>
    rw [assignFrom, store]
    by_cases hi : i < e.length
    · rw [if_pos hi, Outcome.bind_ok, ih]
      by_cases hl : i + 1 + vs.length ≤ e.length
      · rw [if_pos (by simp; left; omega), if_pos (by simp; omega)]
        congr 1
        rw [List.drop_set_of_lt (by omega), List.take_add_one, List.take_set, List.set_eq_of_length_le (by simp),
          List.getElem?_set_self hi]
        simp [Nat.add_assoc, Nat.add_comm 1]
      · have : vs ≠ [] := by rintro rfl; simp at hl; omega
        rw [if_neg (by simp [this]; omega), if_neg (by simp; omega)]
    · rw [if_neg hi, Outcome.bind_ub, if_neg (by simp; omega)]

/-- **C91** Assigning a range: exactly as many values as elements replace the contents, more are
undefined, and fewer replace the first elements and leave the others as they were. -/
theorem C91_assign_range (dims : List Nat) (a range : List T) (ha : Shaped dims a) :
    (range.length = elements dims → assign a range = .ok range) ∧
    (range.length > elements dims → assign a range = .ub) ∧
    (range.length < elements dims → assign a range = .ok (range ++ a.drop range.length)) := by
  rw [assign, assignFrom_eq]
  have ha' : a.length = elements dims := ha
  refine ⟨fun h => ?_, fun h => ?_, fun h => ?_⟩
  · rw [if_pos (by left; omega), List.drop_eq_nil_of_le (by omega)]; simp
  · rw [if_neg]
    rintro (h' | rfl)
    · omega
    · simp at h
  · rw [if_pos (by left; omega)]; simp

example : assign [1, 2, 3, 4] [5, 6, 7, 8] = .ok [5, 6, 7, 8] ∧ assign [1, 2] [5, 6, 7] = .ub := by decide

/-- **C91** fails for short ranges: `assign` is documented to replace the contents, but keeps the
rest of them. -/
theorem C91_assign_short_fails :
    ∃ (a range r : List Nat), Shaped [2, 2] a ∧ assign a range = .ok r ∧ r ≠ range ∧ ∃ x ∈ r, x ∉ range :=
  ⟨[1, 2, 3, 4], [9], [9, 2, 3, 4], rfl, by decide, by decide, 2, by decide, by decide⟩

/-! ## comparison -/

theorem eqLoop_iff [DecidableEq T] (dims : List Nat) (x y : List T) (hx : Shaped dims x) (hy : Shaped dims y) (i k : Nat)
    (hk : i + k = x.length) : eqLoop dims x y i k = .ok (decide (x.drop i = y.drop i)) := by
  have hl : x.length = y.length := hx.trans hy.symm
  induction k generalizing i with
  | zero =>
    rw [eqLoop, List.drop_eq_nil_of_le (by omega), List.drop_eq_nil_of_le (by omega)]; simp
  | succ k ih =>
    have lx : i < x.length := by omega
    have ly : i < y.length := by omega
    rw [eqLoop, flat_eq dims x hx i lx, Outcome.bind_ok, flat_eq dims y hy i ly, Outcome.bind_ok, ih _ (by omega),
      List.drop_eq_getElem_cons lx, List.drop_eq_getElem_cons ly]
    by_cases h : x[i] = y[i]
    · rw [if_neg (by simpa using h)]; simp only [List.cons.injEq, h, true_and]
    · rw [if_pos h]; simp only [List.cons.injEq, h, false_and, decide_false]

theorem eqScalLoop_iff [DecidableEq T] (dims : List Nat) (x : List T) (hx : Shaped dims x) (v : T) (i k : Nat)
    (hk : i + k = x.length) : eqScalLoop dims x v i k = .ok (decide (∀ a ∈ x.drop i, a = v)) := by
  induction k generalizing i with
  | zero => rw [eqScalLoop, List.drop_eq_nil_of_le (by omega)]; simp
  | succ k ih =>
    have lx : i < x.length := by omega
    rw [eqScalLoop, flat_eq dims x hx i lx, Outcome.bind_ok, ih _ (by omega), List.drop_eq_getElem_cons lx]
    by_cases h : x[i] = v
    · rw [if_neg (by simpa using h)]; simp only [List.forall_mem_cons, h, true_and]
    · rw [if_pos h]; simp only [List.forall_mem_cons, h, false_and, decide_false]

theorem ext_call (dims : List Nat) (x y : List T) (hx : Shaped dims x) (hy : Shaped dims y) :
    x = y ↔ ∀ ids, InRange ids dims → call dims x ids = call dims y ids := by
  refine ⟨fun h => h ▸ fun _ _ => rfl, fun h => List.ext_getElem (hx.trans hy.symm) fun i h1 h2 => ?_⟩
  obtain ⟨ids, hi, rfl⟩ := position dims x hx i h1
  obtain ⟨_, e1⟩ := call_at dims x hx ids hi
  obtain ⟨_, e2⟩ := call_at dims y hy ids hi
  have := h ids hi
  rw [e1, e2] at this
  exact Outcome.ok.inj this

/-- **C91** Two arrays compare equal exactly when they are equal at every index tuple, and an array
compares equal to a scalar exactly when all its elements do. -/
theorem C91_eq [DecidableEq T] (dims : List Nat) (x y : List T) (hx : Shaped dims x) (hy : Shaped dims y) (v : T) :
    ∃ b c, eq dims x y = .ok b ∧ ne dims x y = .ok (!b) ∧ eqScal dims x v = .ok c ∧
      (b = true ↔ ∀ ids, InRange ids dims → call dims x ids = call dims y ids) ∧
      (c = true ↔ ∀ ids, InRange ids dims → call dims x ids = .ok v) := by
  have e1 := eqLoop_iff dims x y hx hy 0 x.length (by omega)
  have e2 := eqScalLoop_iff dims x hx v 0 x.length (by omega)
  have hx' : elements dims = x.length := hx.symm
  refine ⟨_, _, by rw [eq, hx']; exact e1, by rw [ne, eq, hx', e1]; rfl, by rw [eqScal, hx']; exact e2, ?_, ?_⟩
  · rw [← ext_call dims x y hx hy]; simp
  · simp only [List.drop_zero, decide_eq_true_eq]
    constructor
    · intro h ids hi
      obtain ⟨_, e⟩ := call_at dims x hx ids hi
      rw [e, h _ (List.getElem_mem _)]
    · intro h a ha
      obtain ⟨i, hi, rfl⟩ := List.getElem_of_mem ha
      obtain ⟨ids, hr, rfl⟩ := position dims x hx i hi
      obtain ⟨_, e⟩ := call_at dims x hx ids hr
      exact Outcome.ok.inj (e.symm.trans (h ids hr))

example : eq [2, 2] [1, 2, 3, 4] [1, 2, 3, 5] = .ok false ∧ eqScal [2, 2] [7, 7, 7, 7] 7 = .ok true ∧
    ne [2, 2] [1, 2, 3, 4] [1, 2, 3, 4] = .ok false := by decide

theorem lt_iff [LinearOrder T] (x y : List T) (h : x.length = y.length) :
    lt x y = true ↔ ∃ i, ∃ (h1 : i < x.length) (h2 : i < y.length), x[i] < y[i] ∧
      ∀ j (hj : j < i), x[j] = y[j] := by
  induction x generalizing y with
  | nil => cases y with
    | nil => simp [lt]
    | cons => simp at h
  | cons a x ih =>
    cases y with
    | nil => simp at h
    | cons b y =>
      rw [lt]
      by_cases h1 : a < b
      · rw [if_pos h1]
        simp only [true_iff]
        exact ⟨0, by simp, by simp, by simpa using h1, by omega⟩
      · rw [if_neg h1]
        by_cases h2 : b < a
        · rw [if_pos h2]
          simp only [Bool.false_eq_true, false_iff]
          rintro ⟨i, hi, hi', hlt, hall⟩
          cases i with
          | zero => exact h1 (by simpa using hlt)
          | succ i => have := hall 0 (by omega); simp at this; exact absurd h2 (by rw [this]; exact lt_irrefl _)
        · rw [if_neg h2, ih y (by simpa using h)]
          have hab : a = b := le_antisymm (not_lt.1 h2) (not_lt.1 h1)
          subst hab
          constructor
          · rintro ⟨i, hi, hi', hlt, hall⟩
            refine ⟨i + 1, by simpa using hi, by simpa using hi', by simpa using hlt, fun j hj => ?_⟩
            cases j with
            | zero => rfl
            | succ j => simpa using hall j (by omega)
          · rintro ⟨i, hi, hi', hlt, hall⟩
            cases i with
            | zero => simp at hlt
            | succ i =>
              refine ⟨i, by simpa using hi, by simpa using hi', by simpa using hlt, fun j hj => ?_⟩
              simpa using hall (j + 1) (by omega)

/-- **C91** One array is less than another exactly when it is less at some index tuple and equal at
all index tuples before it, in the order in which the last index runs fastest. -/
theorem C91_lt [LinearOrder T] (dims : List Nat) (x y : List T) (hx : Shaped dims x) (hy : Shaped dims y) :
    lt x y = true ↔ ∃ ids a b, InRange ids dims ∧ call dims x ids = .ok a ∧ call dims y ids = .ok b ∧ a < b ∧
      ∀ js, InRange js dims → Before js ids → call dims x js = call dims y js := by
  rw [lt_iff x y (hx.trans hy.symm)]
  constructor
  · rintro ⟨i, h1, h2, hlt, hall⟩
    obtain ⟨ids, hi, rfl⟩ := position dims x hx i h1
    obtain ⟨_, e1⟩ := call_at dims x hx ids hi
    obtain ⟨_, e2⟩ := call_at dims y hy ids hi
    refine ⟨ids, _, _, hi, e1, e2, hlt, fun js hj hb => ?_⟩
    obtain ⟨_, e3⟩ := call_at dims x hx js hj
    obtain ⟨_, e4⟩ := call_at dims y hy js hj
    rw [e3, e4, hall _ (rank_before js ids dims hj hi hb)]
  · rintro ⟨ids, a, b, hi, ha, hb, hlt, hall⟩
    obtain ⟨l1, e1⟩ := call_at dims x hx ids hi
    obtain ⟨l2, e2⟩ := call_at dims y hy ids hi
    rw [e1] at ha; rw [e2] at hb
    rw [← Outcome.ok.inj ha, ← Outcome.ok.inj hb] at hlt
    refine ⟨_, l1, l2, hlt, fun j hj => ?_⟩
    obtain ⟨js, hjs, rfl⟩ := position dims x hx j (by omega)
    obtain ⟨_, e3⟩ := call_at dims x hx js hjs
    obtain ⟨_, e4⟩ := call_at dims y hy js hjs
    have := hall js hjs ((rank_lt_iff dims js ids hjs hi).2 hj)
    rw [e3, e4] at this
    exact Outcome.ok.inj this

/-- **C91** The comparisons are those of one total order: irreflexive and transitive, exactly one of
less, equal and greater holds, and the other operators agree with it. -/
theorem C91_total_order [LinearOrder T] (x y z : List T) (h1 : x.length = y.length) (h2 : y.length = z.length) :
    lt x x = false ∧ (lt x y = true → lt y z = true → lt x z = true) ∧
    (lt x y = true ∨ x = y ∨ lt y x = true) ∧ (lt x y = true → lt y x = false ∧ x ≠ y) ∧
    gt x y = lt y x ∧ (le x y = true ↔ lt x y = true ∨ x = y) ∧ (ge x y = true ↔ lt y x = true ∨ x = y) := by
  have irr : ∀ x : List T, lt x x = false := by
    intro x
    rw [← Bool.not_eq_true, lt_iff x x rfl]
    rintro ⟨i, _, _, h, _⟩
    exact lt_irrefl _ h
  have tr : ∀ x y z : List T, x.length = y.length → y.length = z.length → lt x y = true → lt y z = true → lt x z = true := by
    intro x y z h1 h2 a b
    rw [lt_iff x y h1] at a
    rw [lt_iff y z h2] at b
    rw [lt_iff x z (h1.trans h2)]
    obtain ⟨i, i1, i2, hi, ai⟩ := a
    obtain ⟨j, j1, j2, hj, aj⟩ := b
    rcases lt_trichotomy i j with h | h | h
    · exact ⟨i, i1, by omega, by rw [← aj i h]; exact hi, fun k hk => by rw [ai k hk, aj k (by omega)]⟩
    · subst h; exact ⟨i, i1, by omega, lt_trans hi hj, fun k hk => by rw [ai k hk, aj k hk]⟩
    · exact ⟨j, by omega, j2, by rw [ai j h]; exact hj, fun k hk => by rw [ai k (by omega), aj k hk]⟩
  have tot : ∀ x y : List T, x.length = y.length → (lt x y = true ∨ x = y ∨ lt y x = true) := by
    intro x
    induction x with
    | nil => intro y h; cases y with
      | nil => exact Or.inr (Or.inl rfl)
      | cons => simp at h
    | cons a x ih =>
      intro y h
      cases y with
      | nil => simp at h
      | cons b y =>
        rw [lt, lt]
        rcases lt_trichotomy a b with hab | hab | hab
        · left; rw [if_pos hab]
        · subst hab
          rw [if_neg (lt_irrefl a), if_neg (lt_irrefl a), if_neg (lt_irrefl a), if_neg (lt_irrefl a)]
          rcases ih y (by simpa using h) with h' | h' | h'
          · exact Or.inl h'
          · exact Or.inr (Or.inl (by rw [h']))
          · exact Or.inr (Or.inr h')
        · right; right; rw [if_pos hab]
  have asym : ∀ x y : List T, x.length = y.length → lt x y = true → lt y x = false := by
    intro x y h a
    by_contra hb
    rw [Bool.not_eq_false] at hb
    have := tr x y x h h.symm a hb
    rw [irr x] at this
    exact Bool.false_ne_true this
  refine ⟨irr x, tr x y z h1 h2, tot x y h1, fun a => ⟨asym x y h1 a, fun e => ?_⟩, rfl, ?_, ?_⟩
  · subst e; rw [irr x] at a; exact Bool.false_ne_true a
  · rw [le, Bool.not_eq_true']
    constructor
    · intro h
      rcases tot x y h1 with h' | h' | h'
      · exact Or.inl h'
      · exact Or.inr h'
      · rw [h] at h'; exact absurd h' Bool.false_ne_true
    · rintro (h | rfl)
      · exact asym x y h1 h
      · exact irr x
  · rw [ge, Bool.not_eq_true']
    constructor
    · intro h
      rcases tot x y h1 with h' | h' | h'
      · rw [h] at h'; exact absurd h' Bool.false_ne_true
      · exact Or.inr h'
      · exact Or.inl h'
    · rintro (h | rfl)
      · exact asym y x h1.symm h
      · exact irr x

example : lt [1, 5, 0, 0] [1, 6, 0, 0] = true ∧ le [1, 5] [1, 5] = true ∧ gt [2, 0] [1, 9] = true := by decide

/-- **C91** The first and the last element are those at the smallest and the largest index tuple. -/
theorem C91_front_back (dims : List Nat) (x : List T) (hx : Shaped dims x) (ids : List Nat) (hi : InRange ids dims) :
    ((∀ js, InRange js dims → ¬ Before js ids) → front x = call dims x ids) ∧
    ((∀ js, InRange js dims → ¬ Before ids js) → back dims x = call dims x ids) := by
  obtain ⟨l, e⟩ := call_at dims x hx ids hi
  have hx' : x.length = elements dims := hx
  constructor
  · intro h
    have : rank ids dims = 0 := by
      by_contra hne
      obtain ⟨js, hj, ej⟩ := position dims x hx 0 (by omega)
      exact h js hj ((rank_lt_iff dims js ids hj hi).2 (by omega))
    rw [e, front, load_eq x 0 (by omega)]
    simp [this]
  · intro h
    have : rank ids dims = elements dims - 1 := by
      by_contra hne
      obtain ⟨js, hj, ej⟩ := position dims x hx (elements dims - 1) (by omega)
      exact h js hj ((rank_lt_iff dims ids js hi hj).2 (by omega))
    rw [e, back, load_eq x _ (by omega)]
    simp [this]

example : front [7, 8, 9, 10] = call [2, 2] [7, 8, 9, 10] [0, 0] ∧ back [2, 2] [7, 8, 9, 10] = call [2, 2] [7, 8, 9, 10] [1, 1] := by
  decide

end

end Verif.MultiArray
