import Verif.Json.IterLemmas

/-!
# C134: walking through a value

`elems v` (in `Json.IterLemmas`) is the list of the elements of a value: those of an array, the values of
the members of an object in the order of their names, nothing for null, and otherwise the value itself.
`itemKeys v` are the names `items()` has for them.  `stepped σ i it` is `it` after `i` times `++`.
-/

namespace Verif.Json

variable {F : Type}

/-- **C134** (what holds) A loop from `begin()` to `end()` meets each element once, in order, and ends after
as many rounds as there are elements, which is what `size()` says; `empty()` says whether there is none. -/
theorem C134_visits (σ : Store F) (a n : Nat) (hn : (elems (σ a)).length < n) :
    walk σ n (begin_ σ a) (end_ σ a) = .ok (elems (σ a)) ∧ size_ (σ a) = (elems (σ a)).length ∧
      (empty_ (σ a) = true ↔ elems (σ a) = []) := by
  refine ⟨?_, (elems_length _).symm, ?_⟩
  · rw [begin_eq, end_eq, walk_pos n 0 _ (Nat.zero_le _) (Nat.le_refl _) (by omega)]
    simp
  · cases σ a <;> simp [empty_, elems]

/-- three elements of an array, and the members of an object in order -/
example : walk (fun _ => (.arr [.int 1, .null, .bool true] : Json Nat)) 4 (begin_ (fun _ => (.arr [.int 1, .null, .bool true] : Json Nat)) 7)
    (end_ (fun _ => (.arr [.int 1, .null, .bool true] : Json Nat)) 7) = .ok [.int 1, .null, .bool true] :=
  (C134_visits (fun _ => (.arr [.int 1, .null, .bool true] : Json Nat)) 7 4 (by simp [elems])).1

example : elems (.obj [([97], .int 1), ([98], .int 2)] : Json Nat) = [.int 1, .int 2] := rfl
example : elems (.str [97] : Json Nat) = [.str [97]] ∧ elems (.null : Json Nat) = [] := ⟨rfl, rfl⟩

/-- **C134** (what holds) A loop from any place to a later one meets the elements between. -/
theorem C134_between (σ : Store F) (a n i j : Nat) {x y : Iter} (hx : stepped σ i (begin_ σ a) = .ok x)
    (hy : stepped σ j (begin_ σ a) = .ok y) (hij : i ≤ j) (hj : j ≤ (elems (σ a)).length) (hn : j - i < n) :
    walk σ n x y = .ok (((elems (σ a)).take j).drop i) := by
  rw [begin_eq, stepped_pos i 0 (by omega)] at hx
  rw [begin_eq, stepped_pos j 0 (by omega)] at hy
  cases hx
  cases hy
  simpa using walk_pos n i j hij hj hn

example : ∃ x y : Iter, stepped (fun _ => (.arr [.int 1, .null, .bool true] : Json Nat)) 1
    (begin_ (fun _ => (.arr [.int 1, .null, .bool true] : Json Nat)) 7) = .ok x ∧
    stepped (fun _ => (.arr [.int 1, .null, .bool true] : Json Nat)) 3
    (begin_ (fun _ => (.arr [.int 1, .null, .bool true] : Json Nat)) 7) = .ok y := ⟨_, _, rfl, rfl⟩

/-- **C134** (what holds) A loop from `rbegin()` to `rend()` meets the elements the other way round. -/
theorem C134_reverse (σ : Store F) (a n : Nat) (hn : (elems (σ a)).length < n) :
    revWalk σ n (end_ σ a) (begin_ σ a) = .ok (elems (σ a)).reverse := by
  rw [begin_eq, end_eq, revWalk_pos n 0 _ (Nat.zero_le _) (Nat.le_refl _) (by omega)]
  simp

example : (revWalk (fun _ => (.obj [([97], .int 1), ([98], .int 2)] : Json Nat)) 3
    (end_ (fun _ => (.obj [([97], .int 1), ([98], .int 2)] : Json Nat)) 0)
    (begin_ (fun _ => (.obj [([97], .int 1), ([98], .int 2)] : Json Nat)) 0)) = .ok [.int 2, .int 1] :=
  C134_reverse (fun _ => (.obj [([97], .int 1), ([98], .int 2)] : Json Nat)) 0 3 (by simp [elems])

/-- **C134** (what holds) A loop over `items()` meets the elements in order, each with its name: for an
object the name of the member, for an array the index in decimal digits, for any other value the empty
text, whether or not the program asks for the name in every round. -/
theorem C134_items (σ : Store F) (a : Nat) (asks : List Bool) (hn : (elems (σ a)).length < asks.length) :
    itemWalk σ asks { anchor := begin_ σ a } (end_ σ a) =
      .ok ((asks.zip ((itemKeys (σ a)).zip (elems (σ a)))).map fun p => (if p.1 then some p.2.1 else none, p.2.2)) := by
  rw [begin_eq, end_eq, itemWalk_pos asks 0 _ (Nat.zero_le _) (by omega) (by simp [Item.good, toStr]) rfl rfl]
  simp

/-- twelve elements, the name asked for at the first and the last two -/
example : itemWalk (fun _ => (.arr (List.replicate 12 .null) : Json Nat))
    [true, false, false, false, false, false, false, false, false, false, true, true, true]
    { anchor := begin_ (fun _ => (.arr (List.replicate 12 .null) : Json Nat)) 3 }
    (end_ (fun _ => (.arr (List.replicate 12 .null) : Json Nat)) 3) =
    .ok ([(some [0x30], .null)] ++ List.replicate 9 (none, .null) ++
      [(some [0x31, 0x30], .null), (some [0x31, 0x31], .null)]) := by
  rw [C134_items (fun _ => (.arr (List.replicate 12 .null) : Json Nat)) 3 _ (by simp [elems])]
  simp [itemKeys, elems, toStr, List.range_succ]

/-- **C134** (what holds) `key()` at each member of an object is its name, and `*it` its value; `find` gives
the place of a member, or the end; `count` and `contains` say whether it is there. -/
theorem C134_find (σ : Store F) (a : Nat) (ms : List (Bytes × Json F)) (h : σ a = .obj ms) (k : Bytes) :
    (∀ i (hi : i < ms.length) x, stepped σ i (begin_ σ a) = .ok x →
      iterKey σ x = .ok ms[i].1 ∧ deref σ x = .ok ms[i].2) ∧
    (∀ v, lookup k ms = some v → iterKey σ (find_ σ a k) = .ok k ∧ deref σ (find_ σ a k) = .ok v ∧
      count_ k (σ a) = 1 ∧ contains_ k (σ a) = true) ∧
    (lookup k ms = none → find_ σ a k = end_ σ a ∧ count_ k (σ a) = 0 ∧ contains_ k (σ a) = false) := by
  have key : ∀ (ms : List (Bytes × Json F)) (v : Json F), lookup k ms = some v → ms[findPos k ms]? = some (k, v) := by
    intro ms
    induction ms with
    | nil => intro v hv; simp [lookup] at hv
    | cons e ms ih =>
      intro v hv
      rw [lookup_cons] at hv
      rw [findPos]
      by_cases hk : k = e.1
      · subst hk
        simp only [if_true] at hv
        rw [if_neg (by rw [keys_differ]; simp)]
        cases hv
        rfl
      · rw [if_neg hk] at hv
        rw [if_pos (keys_differ.mpr hk)]
        simpa using ih v hv
  have nokey : ∀ (ms : List (Bytes × Json F)), lookup k ms = none → findPos k ms = ms.length := by
    intro ms
    induction ms with
    | nil => intro _; rfl
    | cons e ms ih =>
      intro hv
      rw [lookup_cons] at hv
      by_cases hk : k = e.1
      · rw [if_pos hk] at hv; cases hv
      · rw [if_neg hk] at hv
        rw [findPos, if_pos (keys_differ.mpr hk), ih hv]
        rfl
  refine ⟨?_, ?_, ?_⟩
  · intro i hi x hx
    have hl : i < (elems (σ a)).length := by rw [h]; simpa [elems] using hi
    rw [begin_eq, stepped_pos i 0 (by omega)] at hx
    cases hx
    rw [Nat.zero_add, deref_pos hl]
    constructor
    · simp [iterKey, posIt, h, List.getElem?_eq_getElem hi]
    · simp [elems, h]
  · intro v hv
    have hg := key ms v hv
    have hlt : findPos k ms < ms.length := by
      rcases Nat.lt_or_ge (findPos k ms) ms.length with h1 | h1
      · exact h1
      · rw [List.getElem?_eq_none h1] at hg; cases hg
    refine ⟨?_, ?_, ?_, ?_⟩
    · simp [iterKey, find_, end_, h, hg]
    · have hne : findPos k ms ≠ ms.length := by omega
      simp [deref, find_, end_, h, derefPos, hg, hne]
    · simp [count_, h, show findPos k ms ≠ ms.length by omega]
    · simp [contains_, h, show findPos k ms ≠ ms.length by omega]
  · intro hv
    have hg := nokey ms hv
    refine ⟨?_, ?_, ?_⟩
    · simp [find_, end_, h, hg]
    · simp [count_, h, hg]
    · simp [contains_, h, hg]

example : lookup [98] ([([97], .int 1), ([98], .int 2)] : List (Bytes × Json Nat)) = some (.int 2) ∧
    lookup [99] ([([97], .int 1), ([98], .int 2)] : List (Bytes × Json Nat)) = none := by
  exact ⟨rfl, rfl⟩

/-- **C134** (what holds) In a value that is no object no key is found: `find` gives the end, `count` zero
and `contains` false. -/
theorem C134_find_none (σ : Store F) (a : Nat) (ho : ∀ ms, σ a ≠ .obj ms) (k : Bytes) :
    find_ σ a k = end_ σ a ∧ count_ k (σ a) = 0 ∧ contains_ k (σ a) = false := by
  cases h : σ a with
  | obj ms => exact absurd h (ho ms)
  | _ => simp [find_, count_, contains_, h]

example : ∀ ms, (fun _ => (.arr [.int 1, .str [97]] : Json Nat)) 0 ≠ .obj ms := by intro ms h; cases h

/-- **C134** (what holds) Of a value that is no object, `begin() + i` is the place after `i` times `++`, and
`begin()[i]` the element there; iterators are ordered as their places, and their difference is that of
their places: `end() - begin()` is `size()`. -/
theorem C134_random (σ : Store F) (a i j : Nat) (ho : ∀ ms, σ a ≠ .obj ms) (hi : i ≤ (elems (σ a)).length)
    (hj : j ≤ (elems (σ a)).length) {x y : Iter} (hx : stepped σ i (begin_ σ a) = .ok x)
    (hy : stepped σ j (begin_ σ a) = .ok y) :
    iterAdd σ (begin_ σ a) i = .ok x ∧ iterAdd σ x ((j : Int) - i) = .ok y ∧
    (∀ h : i < (elems (σ a)).length, iterAt σ (begin_ σ a) i = .ok (elems (σ a))[i] ∧ deref σ x = .ok (elems (σ a))[i]) ∧
    iterLt σ x y = .ok (decide (i < j)) ∧ iterLe σ x y = .ok (decide (i ≤ j)) ∧
    iterGt σ x y = .ok (decide (j < i)) ∧ iterGe σ x y = .ok (decide (j ≤ i)) ∧ iterEq σ x y = .ok (i == j) ∧
    iterDiff σ x y = .ok ((i : Int) - j) ∧ iterDiff σ (end_ σ a) (begin_ σ a) = .ok (size_ (σ a) : Int) := by
  rw [begin_eq, stepped_pos i 0 (by omega)] at hx
  rw [begin_eq, stepped_pos j 0 (by omega)] at hy
  cases hx
  cases hy
  simp only [Nat.zero_add]
  have hlt : iterLt σ (posIt (σ a) a i) (posIt (σ a) a j) = .ok (decide (i < j)) ∧
      iterLt σ (posIt (σ a) a j) (posIt (σ a) a i) = .ok (decide (j < i)) := by
    simp only [iterLt, posIt_owner, ne_eq, not_true_eq_false, if_false]
    revert hi hj
    cases hv : σ a with
    | obj ms => exact absurd hv (ho ms)
    | arr xs => intro _ _; exact ⟨rfl, rfl⟩
    | null => intro hi hj; simp only [elems, List.length_nil] at hi hj; simp [posIt, show i = j by omega]
    | _ => intro _ _; simp [posIt]
  refine ⟨?_, ?_, ?_, hlt.1, ?_, ?_, ?_, eq_pos hi hj, ?_, ?_⟩
  · rw [begin_eq]
    simp only [iterAdd, posIt_owner]
    revert hi
    cases hv : σ a with
    | obj ms => exact absurd hv (ho ms)
    | arr xs =>
      intro hi; simp only [elems] at hi
      simp only [posIt]
      rw [advance_ok (by omega) (by omega), Outcome.bind_ok]
      simp
    | null => intro hi; simp only [elems, List.length_nil] at hi; simp [posIt, diffT, show i = 0 by omega]
    | _ => intro hi; simp only [elems, List.length_singleton] at hi; simp only [posIt]; rw [diffT, if_pos (by simp; omega)]; simp
  · simp only [iterAdd, posIt_owner]
    revert hi hj
    cases hv : σ a with
    | obj ms => exact absurd hv (ho ms)
    | arr xs =>
      intro hi hj; simp only [elems] at hi hj
      simp only [posIt]
      rw [advance_ok (by omega) (by omega), Outcome.bind_ok]
      congr 3
      omega
    | null => intro hi hj; simp only [elems, List.length_nil] at hi hj; simp [posIt, diffT, show i = 0 by omega, show j = 0 by omega]
    | _ =>
      intro hi hj; simp only [elems, List.length_singleton] at hi hj; simp only [posIt]
      rw [diffT, if_pos (by omega), Outcome.bind_ok]
      congr 2
      omega
  · intro h
    refine ⟨?_, deref_pos h⟩
    rw [begin_eq]
    simp only [iterAt, posIt_owner]
    revert h
    cases hv : σ a with
    | obj ms => exact absurd hv (ho ms)
    | arr xs => intro h; simp only [elems] at h; simp [posIt, elems, h]
    | null => intro h; simp [elems] at h
    | _ => intro h; simp only [elems, List.length_singleton] at h; simp [posIt, elems, diffT, show i = 0 by omega]
  · rw [iterLe, hlt.2, Outcome.bind_ok]; congr 1; rw [Bool.eq_iff_iff]; simp
  · rw [iterGt, iterLe, hlt.2, Outcome.bind_ok, Outcome.bind_ok]; simp
  · rw [iterGe, hlt.1, Outcome.bind_ok]; congr 1; rw [Bool.eq_iff_iff]; simp
  · simp only [iterDiff, posIt_owner]
    revert hi hj
    cases hv : σ a with
    | obj ms => exact absurd hv (ho ms)
    | arr xs => intro hi hj; simp [posIt]
    | null => intro hi hj; simp only [elems, List.length_nil] at hi hj; simp [posIt, diffT, show i = j by omega]
    | _ => intro hi hj; simp only [elems, List.length_singleton] at hi hj; simp only [posIt]; rw [diffT, if_pos (by omega)]
  · rw [begin_eq, end_eq, ← elems_length]
    simp only [iterDiff, posIt_owner]
    cases hv : σ a with
    | obj ms => exact absurd hv (ho ms)
    | arr xs => simp [posIt]
    | null => simp [posIt, diffT, elems]
    | _ => simp [posIt, elems, diffT]

example : (∀ ms, (fun _ => (.arr [.int 1, .null, .bool true] : Json Nat)) 7 ≠ .obj ms) ∧
    iterAdd (fun _ => (.arr [.int 1, .null, .bool true] : Json Nat))
      (begin_ (fun _ => (.arr [.int 1, .null, .bool true] : Json Nat)) 7) 2 = .ok { owner := some 7, arrIt := some 2 } :=
  ⟨fun _ h => by simp at h, rfl⟩

/-- **C134** (what holds) `it - n` undoes `it + n`: from the place `i` it goes back to the place `i - n`. -/
theorem C134_minus (σ : Store F) (a i j : Nat) (ho : ∀ ms, σ a ≠ .obj ms) (hi : i ≤ (elems (σ a)).length)
    (hj : j ≤ (elems (σ a)).length) (hn : (elems (σ a)).length < 2 ^ 63) {x y : Iter} (hx : stepped σ i (begin_ σ a) = .ok x)
    (hy : stepped σ j (begin_ σ a) = .ok y) : iterSub σ x ((i : Int) - j) = .ok y := by
  have h := (C134_random σ a i j ho hi hj hx hy).2.1
  rw [iterSub, diffT, if_pos (by omega), Outcome.bind_ok, show -((i : Int) - j) = (j : Int) - i by omega]
  exact h

example : (iterSub (F := Nat) (fun _ => .arr [.int 1, .int 2, .int 3]) (end_ (F := Nat) (fun _ => .arr [.int 1, .int 2, .int 3]) 0) 2 >>= fun x =>
    deref (F := Nat) (fun _ => .arr [.int 1, .int 2, .int 3]) x) = .ok (.int 2) := rfl

/-- **C134** (what holds) Of a value that is no object, `it[n]` is the element `n` places on from the place of
`it`, for negative `n` too. -/
theorem C134_index (σ : Store F) (a i j : Nat) (ho : ∀ ms, σ a ≠ .obj ms) (hi : i ≤ (elems (σ a)).length)
    (hj : j < (elems (σ a)).length) {x : Iter} (hx : stepped σ i (begin_ σ a) = .ok x) :
    iterAt σ x ((j : Int) - i) = .ok (elems (σ a))[j] := by
  rw [begin_eq, stepped_pos i 0 (by omega)] at hx
  cases hx
  simp only [Nat.zero_add, iterAt, posIt_owner]
  revert hi hj
  cases hv : σ a with
  | obj ms => exact absurd hv (ho ms)
  | arr xs =>
    intro hi hj; simp only [elems] at hi hj
    simp only [posIt]
    rw [if_pos (by omega), show (((i : Int) + ((j : Int) - i)).toNat) = j by omega, List.getElem?_eq_getElem hj]
    simp [elems]
  | null => intro _ hj; simp [elems] at hj
  | _ =>
    intro hi hj; simp only [elems, List.length_singleton] at hi hj
    obtain rfl : j = 0 := by omega
    simp only [diffT]
    rw [if_pos (by omega), Outcome.bind_ok]
    simp [posIt, elems]

example : iterAt (F := Nat) (fun _ => .arr [.int 1, .int 2, .int 3]) (end_ (F := Nat) (fun _ => .arr [.int 1, .int 2, .int 3]) 0) (-2) =
    .ok (.int 2) := rfl

/-- **C134** (what holds) What makes no sense is refused: comparing iterators of two values (212), asking for
the order of iterators of an object (213) or adding to or subtracting them (209), indexing one (208), the
key of an element of anything but an object (207), and the value at an iterator of null or past a number,
a string or a boolean (214). -/
theorem C134_refuses (σ : Store F) (x y : Iter) :
    (x.owner ≠ y.owner → iterEq σ x y = .throws "invalid_iterator.212" ∧ iterLt σ x y = .throws "invalid_iterator.212" ∧
      iterNe σ x y = .throws "invalid_iterator.212" ∧ iterLe σ x y = .throws "invalid_iterator.212" ∧
      iterGt σ x y = .throws "invalid_iterator.212" ∧ iterGe σ x y = .throws "invalid_iterator.212") ∧
    (∀ a ms, x.owner = some a → σ a = .obj ms →
      (y.owner = some a → iterLt σ x y = .throws "invalid_iterator.213") ∧
      (∀ n, iterAdd σ x n = .throws "invalid_iterator.209" ∧ iterAt σ x n = .throws "invalid_iterator.208") ∧
      iterDiff σ x y = .throws "invalid_iterator.209") ∧
    (∀ a, x.owner = some a → (∀ ms, σ a ≠ .obj ms) → iterKey σ x = .throws "invalid_iterator.207") ∧
    (∀ a, x.owner = some a → σ a = .null → deref σ x = .throws "invalid_iterator.214") ∧
    (∀ a, x = end_ σ a → (∀ ms, σ a ≠ .obj ms) → (∀ xs, σ a ≠ .arr xs) → deref σ x = .throws "invalid_iterator.214") := by
  refine ⟨?_, ?_, ?_, ?_, ?_⟩
  · intro h
    have h1 : iterEq σ x y = .throws "invalid_iterator.212" := by rw [iterEq, if_pos h]
    have h2 : iterLt σ x y = .throws "invalid_iterator.212" := by rw [iterLt, if_pos h]
    have h3 : iterLt σ y x = .throws "invalid_iterator.212" := by rw [iterLt, if_pos (Ne.symm h)]
    refine ⟨h1, h2, ?_, ?_, ?_, ?_⟩
    · rw [iterNe, h1]; rfl
    · rw [iterLe, h3]; rfl
    · rw [iterGt, iterLe, h3]; rfl
    · rw [iterGe, h2]; rfl
  · intro a ms hx hv
    refine ⟨fun hy => ?_, fun n => ⟨?_, ?_⟩, ?_⟩
    · simp [iterLt, hx, hy, hv]
    · simp [iterAdd, hx, hv]
    · simp [iterAt, hx, hv]
    · simp [iterDiff, hx, hv]
  · intro a hx ho
    rw [iterKey, hx]
    cases hv : σ a with
    | obj ms => exact absurd hv (ho ms)
    | _ => simp only [hv]
  · intro a hx hv
    simp [deref, hx, hv]
  · intro a hx ho ha
    subst hx
    rw [end_eq]
    simp only [deref, posIt_owner]
    cases hv : σ a with
    | obj ms => exact absurd hv (ho ms)
    | arr xs => exact absurd hv (ha xs)
    | _ => simp [posIt, elems]

example : ∃ x y : Iter, x.owner ≠ y.owner := ⟨{ owner := some 0 }, { owner := some 1 }, by decide⟩

/-- **C134** (what does not hold) `it->` is not always `*it`: at an iterator of null before the end it gives
the null where `*it` throws. -/
theorem C134_arrow_fails : ∃ (σ : Store Nat) (a : Nat) (x : Iter), decr σ (end_ σ a) = .ok x ∧
    arrow σ x = .ok .null ∧ deref σ x = .throws "invalid_iterator.214" :=
  ⟨fun _ => .null, 0, { owner := some 0, prim := 0 }, rfl, rfl, rfl⟩

/-- **C134** `it->` is `*it` except at iterators of null. -/
theorem C134_arrow (σ : Store F) (x : Iter) (h : ∀ a, x.owner = some a → σ a ≠ .null) : arrow σ x = deref σ x := by
  rw [arrow, deref]
  cases hx : x.owner with
  | none => rfl
  | some a =>
    cases hv : σ a with
    | null => exact absurd hv (h a hx)
    | _ => simp only [hv]

example : ∀ a, (begin_ (fun _ => (.bool true : Json Nat)) 5).owner = some a → (fun _ => (.bool true : Json Nat)) a ≠ .null :=
  fun _ _ h => by simp at h

/-- **C134** (what does not hold) The difference of iterators of two different values is not refused, as
comparing them is: that of two numbers is a number, that of two arrays undefined. -/
theorem C134_difference_fails : (∃ (σ : Store Nat) (a b : Nat), a ≠ b ∧ iterDiff σ (end_ σ a) (begin_ σ b) = .ok 1) ∧
    ∃ (σ : Store Nat) (a b : Nat), a ≠ b ∧ iterDiff σ (end_ σ a) (begin_ σ b) = .ub :=
  ⟨⟨fun _ => .int 5, 0, 1, by decide, rfl⟩, ⟨fun _ => .arr [], 0, 1, by decide, rfl⟩⟩

/-- **C134** `front()` is the first element and `back()` the last if there is one.  Of null both throw; of an
empty array or object there is nothing to give, and an assertion fails or the behaviour is undefined. -/
theorem C134_ends (σ : Store F) (a : Nat) :
    (∀ v, (elems (σ a)).head? = some v → front σ a = .ok v) ∧
    (∀ v, (elems (σ a)).getLast? = some v → back σ a = .ok v) ∧
    (σ a = .null → front σ a = .throws "invalid_iterator.214" ∧ back σ a = .throws "invalid_iterator.214") ∧
    (σ a = .arr [] ∨ σ a = .obj [] → front σ a = .assertFail ∧ back σ a = .ub) := by
  refine ⟨?_, ?_, ?_, ?_⟩
  · intro v hv
    have hl : 0 < (elems (σ a)).length := by
      rcases Nat.eq_zero_or_pos (elems (σ a)).length with h | h
      · rw [List.length_eq_zero_iff.mp h] at hv; simp at hv
      · exact h
    rw [front, begin_eq, deref_pos hl]
    rw [List.head?_eq_getElem?, List.getElem?_eq_getElem hl] at hv
    cases hv
    rfl
  · intro v hv
    have hl : 0 < (elems (σ a)).length := by
      rcases Nat.eq_zero_or_pos (elems (σ a)).length with h | h
      · rw [List.length_eq_zero_iff.mp h] at hv; simp at hv
      · exact h
    rw [back, end_eq, show (elems (σ a)).length = ((elems (σ a)).length - 1) + 1 by omega, decr_pos (by omega),
      Outcome.bind_ok, deref_pos (by omega)]
    rw [List.getLast?_eq_getElem?, List.getElem?_eq_getElem (by omega)] at hv
    cases hv
    rfl
  · intro h
    constructor
    · simp [front, begin_, deref, h]
    · simp [back, end_, decr, step_, deref, diffT, h]
  · rintro (h | h)
    · constructor
      · simp [front, begin_, deref, derefPos, h]
      · simp [back, end_, decr, step_, advance, h]
    · constructor
      · simp [front, begin_, deref, derefPos, h]
      · simp [back, end_, decr, step_, advance, h]

example : (elems (.obj [([97], .int 1), ([98], .int 2)] : Json Nat)).getLast? = some (.int 2) := rfl

/-- **C134** Assigning to `*it` replaces that element and nothing else: an array keeps its other elements, an
object its names and its other members, and any other value but null becomes the value assigned. -/
theorem C134_assign (σ : Store F) (a i : Nat) (v : Json F) {x : Iter} (hi : i < (elems (σ a)).length)
    (hx : stepped σ i (begin_ σ a) = .ok x) :
    ∃ w, assign σ x v = .ok w ∧
      (∀ xs, σ a = .arr xs → w = .arr (xs.set i v)) ∧
      (∀ ms, σ a = .obj ms → ∃ ns, w = .obj ns ∧ ns.map (·.1) = ms.map (·.1) ∧ ns.map (·.2) = (ms.map (·.2)).set i v) ∧
      ((∀ xs, σ a ≠ .arr xs) → (∀ ms, σ a ≠ .obj ms) → w = v) := by
  rw [begin_eq, stepped_pos i 0 (by omega)] at hx
  cases hx
  rw [Nat.zero_add]
  simp only [assign, posIt_owner]
  revert hi
  cases hv : σ a with
  | null => intro hi; simp [elems] at hi
  | arr xs =>
    intro hi
    simp only [elems] at hi
    refine ⟨.arr (xs.set i v), ?_, ?_, ?_, ?_⟩
    · simp [posIt, hi, show i ≠ xs.length by omega]
    · rintro ys ⟨rfl⟩; rfl
    · rintro ms ⟨⟩
    · intro h; exact absurd rfl (h xs)
  | obj ms =>
    intro hi
    have hi' : i < ms.length := by simpa [elems] using hi
    refine ⟨.obj (ms.set i (ms[i].1, v)), ?_, ?_, ?_, ?_⟩
    · simp [posIt, hi', show i ≠ ms.length by omega]
    · rintro ys ⟨⟩
    · rintro ms' ⟨rfl⟩
      refine ⟨_, rfl, ?_, ?_⟩
      · rw [List.map_set]
        apply List.ext_getElem
        · simp
        · intro j h1 h2
          rw [List.getElem_set]
          split
          · rename_i he; subst he; simp
          · rfl
      · rw [List.map_set]
    · intro _ h; exact absurd rfl (h ms)
  | _ =>
    intro hi
    simp only [elems, List.length_singleton] at hi
    refine ⟨v, by simp [posIt, show i = 0 by omega], ?_, ?_, fun _ _ => rfl⟩
    · rintro xs ⟨⟩
    · rintro ms ⟨⟩

example : ∃ x, stepped (fun _ => (.obj [([97], .int 1), ([98], .int 2)] : Json Nat)) 1
    (begin_ (fun _ => (.obj [([97], .int 1), ([98], .int 2)] : Json Nat)) 0) = .ok x ∧
    assign (fun _ => (.obj [([97], .int 1), ([98], .int 2)] : Json Nat)) x .null =
      .ok (.obj [([97], .int 1), ([98], .null)]) := ⟨_, rfl, rfl⟩

/-- **C134** `value(name, default)` is the member, converted, if there is one, the default otherwise, and is
refused for anything but an object. -/
theorem C134_value {T : Type} (conv : Json F → Outcome T) (σ : Store F) (a : Nat) (k : Bytes) (d : T) :
    (∀ ms, σ a = .obj ms → value_ conv σ a k d =
      match lookup k ms with
      | some v => conv v
      | none => .ok d) ∧
    ((∀ ms, σ a ≠ .obj ms) → value_ conv σ a k d = .throws "type_error.306") := by
  constructor
  · intro ms h
    have hf := C134_find σ a ms h k
    have hlen : ∀ ms : List (Bytes × Json F), findPos k ms ≤ ms.length := by
      intro ms
      induction ms with
      | nil => simp [findPos]
      | cons e ms ih => rw [findPos]; split <;> simp <;> assumption
    have hfe : find_ σ a k = posIt (σ a) a (findPos k ms) := by simp [find_, end_, posIt, h]
    have hne : iterNe σ (find_ σ a k) (end_ σ a) = .ok (findPos k ms != ms.length) := by
      rw [hfe, end_eq, ne_pos (by rw [h]; simpa [elems] using hlen ms) (Nat.le_refl _), h]
      simp [elems]
    simp only [value_, h]
    rw [hne, Outcome.bind_ok]
    cases hl : lookup k ms with
    | some v =>
      have h1 := hf.2.1 v hl
      have h2 : (findPos k ms != ms.length) = true := by simpa [contains_, h] using h1.2.2.2
      rw [if_pos h2, h1.2.1, Outcome.bind_ok]
    | none =>
      have h1 := hf.2.2 hl
      have h2 : (findPos k ms != ms.length) = false := by simpa [contains_, h] using h1.2.2
      rw [h2, if_neg (by simp)]
  · intro h
    rw [value_]
    cases hv : σ a with
    | obj ms => exact absurd hv (h ms)
    | _ => rfl

example : value_ (fun v => Outcome.ok v) (fun _ => (.obj [([97], .int 1)] : Json Nat)) 0 [98] (.bool true) = .ok (.bool true) := by
  rw [(C134_value _ _ _ _ _).1 _ rfl]; rfl

end Verif.Json
