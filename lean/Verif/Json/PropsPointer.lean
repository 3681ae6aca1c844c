import Verif.Json.LeadLemmas

/-!
# JSON pointers (C118, C119, C120)
-/

namespace Verif.Json
open Spec

variable {F : Type}

/-- `{"a": [10, {"m~n/": 11}], "-": null}` -/
def exDoc : Json Unit :=
  .obj [([0x2d], .null), ([0x61], .arr [.uint 10, .obj [([0x6d, 0x7e, 0x6e, 0x2f], .uint 11)]])]

theorem exDoc_ordered : Ordered exDoc := by
  simp [exDoc, Ordered, OrderedM, OrderedL, List.cons_lt_cons_iff]

theorem exDoc_fits : Fits exDoc := by simp [exDoc, Fits, FitsL, FitsM]

theorem exDoc_short : Short exDoc := by simp [exDoc, Short, ShortL, ShortM]

/-- `/a/1/m~0n~1` -/
def exTokens : List Bytes := [[0x61], [0x31], [0x6d, 0x7e, 0x6e, 0x2f]]

/-- **C118** (what holds) A text is taken as a JSON pointer exactly if it is one by the grammar of RFC
6901, and then its reference tokens are those of the grammar. -/
theorem C118_read_iff (s : Bytes) (ts : List Bytes) : split s = .ok ts ↔ Pointer s ts := by
  constructor
  · intro h
    rw [split_sound h]
    exact pointer_text ts
  · intro h
    rw [h.eq_text]
    exact split_ptrToString ts

example : split [0x2f, 0x61, 0x2f, 0x31, 0x2f, 0x6d, 0x7e, 0x30, 0x6e, 0x7e, 0x31] = .ok exTokens :=
  (C118_read_iff _ _).mpr (.step (.plain (by decide) (by decide) .nil)
    (.step (e := [0x31]) (.plain (by decide) (by decide) .nil)
      (.step (e := [0x6d, 0x7e, 0x30, 0x6e, 0x7e, 0x31]) (s := [])
        (.plain (by decide) (by decide) (.tilde (.plain (by decide) (by decide) (.slash .nil)))) .root)))

/-- **C118** (what holds) The text written for a pointer is read as the same pointer, whatever bytes its
tokens have; it is the only text that is. -/
theorem C118_read_back (s : Bytes) (ts : List Bytes) : split s = .ok ts ↔ s = ptrToString ts :=
  ⟨split_sound, fun h => by rw [h]; exact split_ptrToString ts⟩

example : split (ptrToString exTokens) = .ok exTokens := (C118_read_back _ _).mpr rfl
example : ptrToString exTokens = [0x2f, 0x61, 0x2f, 0x31, 0x2f, 0x6d, 0x7e, 0x30, 0x6e, 0x7e, 0x31] := by
  simp [exTokens, ptrToString_cons, ptrToString_nil, esc]

/-- **C118** (what holds) A text that is no pointer is refused: with `parse_error.107` if it does not begin
with a slash, with `parse_error.108` otherwise. -/
theorem C118_refused (s : Bytes) (h : ¬ ∃ ts, Pointer s ts) :
    split s = .throws (if s.head? = some 0x2f then "parse_error.108" else "parse_error.107") := by
  cases s with
  | nil => exact absurd ⟨[], .root⟩ h
  | cons c s =>
    by_cases hc : c = 0x2f
    · rw [if_pos (by simp [hc])]
      rcases splitLoop_total s [] with ⟨ts, ht⟩ | ht
      · refine absurd ⟨ts, (C118_read_iff _ _).mp ?_⟩ h
        rw [split, if_pos hc, ht]
      · rw [split, if_pos hc, ht]
    · rw [if_neg (by simp [hc]), split, if_neg hc]

example : split [0x2f, 0x7e] = .throws "parse_error.108" := by
  refine C118_refused [0x2f, 0x7e] ?_
  rintro ⟨ts, h⟩
  have := (C118_read_iff _ _).mpr h
  revert this
  simp [split, splitLoop, tildesOk]

/-- **C119** (what holds) `at` with a pointer gives a value exactly if the pointer leads to it, member
by member and element by element, where the token of an element is a number below 2^31 that may have
white space, a sign and (after these) zeros before it. -/
theorem C119_at_iff (ts : List Bytes) (v w : Json F) (ho : Ordered v) (hf : Fits v) :
    atPtr ts v = .ok w ↔ Leads LaxIndex ts v w :=
  ⟨at_leads hf, fun h => h.at ho⟩

example : atPtr exTokens exDoc = .ok (.uint 11) :=
  (C119_at_iff _ _ _ exDoc_ordered exDoc_fits).mpr
    (.member (w := .arr [.uint 10, .obj [([0x6d, 0x7e, 0x6e, 0x2f], .uint 11)]]) (by simp)
      (.element (i := 1) (strict_lax (by rw [StrictIndex, digits_small (by omega)]) (by omega)) rfl
        (.member (by simp) (.here _))))

/-- **C119** (what holds) Where a pointer leads by RFC 6901, `at` finds the value, as long as no array has
more than 2^31 elements. -/
theorem C119_rfc_partial (ts : List Bytes) (v w : Json F) (ho : Ordered v) (hs : Short v)
    (h : Leads StrictIndex ts v w) : atPtr ts v = .ok w := (h.lax hs).at ho

example : atPtr exTokens exDoc = .ok (.uint 11) :=
  C119_rfc_partial _ _ _ exDoc_ordered exDoc_short
    (.member (w := .arr [.uint 10, .obj [([0x6d, 0x7e, 0x6e, 0x2f], .uint 11)]]) (by simp)
      (.element (i := 1) (by rw [StrictIndex, digits_small (by omega)]) rfl (.member (by simp) (.here _))))

/-- **C119** (what does not hold) that no element of an array is out of reach: behind the element 2^31 - 1
`at` throws `std::out_of_range` for the pointer that leads to the element. -/
theorem C119_long_fails (xs : List (Json F)) (i : Nat) (hi : 2 ^ 31 ≤ i) (hx : i < xs.length) :
    Leads StrictIndex [digits i] (.arr xs) xs[i] ∧ atPtr [digits i] (.arr xs) = .outOfRange := by
  refine ⟨.element rfl (by simp [hx]) (.here _), ?_⟩
  rw [← toStr_eq, atPtr, if_neg (toStr_minus i), zeroLed_toStr]
  simp [tokenIndex, arrayIndex_big hi]

example : ∃ xs : List (Json Unit), 2 ^ 31 < xs.length :=
  ⟨List.replicate (2 ^ 31 + 1) .null, by rw [List.length_replicate]; omega⟩

/-- **C119** (what does not hold) that `at` finds values only where a pointer leads by RFC 6901: it
takes the tokens ` 1`, `+1` and `-0` as the indices 1, 1 and 0. -/
theorem C119_strict_fails (x y : Json F) :
    (atPtr [[0x20, 0x31]] (.arr [x, y]) = .ok y ∧ ∀ w, ¬ Leads StrictIndex [[0x20, 0x31]] (.arr [x, y]) w) ∧
    (atPtr [[0x2b, 0x31]] (.arr [x, y]) = .ok y ∧ ∀ w, ¬ Leads StrictIndex [[0x2b, 0x31]] (.arr [x, y]) w) ∧
    (atPtr [[0x2d, 0x30]] (.arr [x, y]) = .ok x ∧ ∀ w, ¬ Leads StrictIndex [[0x2d, 0x30]] (.arr [x, y]) w) := by
  have key : ∀ (t : Bytes) (c : Nat), c ∈ t → ¬ Digit c → ∀ w, ¬ Leads StrictIndex [t] (.arr [x, y]) w := by
    intro t c hc hd w h
    cases h with
    | element hi _ _ => exact hd (digits_digit _ c (by rw [StrictIndex] at hi; rw [← hi]; exact hc))
  refine ⟨⟨rfl, key _ 0x20 (by simp) (by unfold Digit; omega)⟩, ⟨rfl, key _ 0x2b (by simp) (by unfold Digit; omega)⟩,
    ⟨rfl, key _ 0x2d (by simp) (by unfold Digit; omega)⟩⟩

example : atPtr [[0x2b, 0x31]] (.arr [.uint 5, .uint 6] : Json Unit) = .ok (.uint 6) :=
  (C119_strict_fails _ _).2.1.1

/-- **C119** (what holds) `contains` is true exactly if `at` finds a value; then `operator[]` gives the same
value of a constant, and the same reference otherwise: whatever is done through it has the same effect.  It is false if a member or
an element is missing, or there is neither object nor array; it throws only for tokens that are no indices of an array, as `at`
does. -/
theorem C119_contains_iff (ts : List Bytes) (v : Json F) :
    (containsPtr ts v = .ok true ↔ ∃ w, atPtr ts v = .ok w) ∧
    (∀ w, atPtr ts v = .ok w → constPtr ts v = .ok w ∧ ∀ f, indexPtrUpd f ts v = atPtrUpd f ts v) ∧
    (∀ k, k = "out_of_range.401" ∨ k = "out_of_range.402" ∨ k = "out_of_range.403" → atPtr ts v = .throws k → containsPtr ts v = .ok false) ∧
    (∀ k, containsPtr ts v = .throws k → (k = "parse_error.106" ∨ k = "parse_error.109" ∨ k = "out_of_range.404") ∧ atPtr ts v = .throws k) ∧
    (containsPtr ts v = .ok false → ∃ k, atPtr ts v = .throws k) :=
  ⟨contains_iff, fun _ h => ⟨const_at h, fun f => index_at f h⟩, contains_missing ts v⟩

example : containsPtr exTokens exDoc = .ok true ∧ containsPtr [[0x61], [0x32]] exDoc = .ok false := ⟨rfl, rfl⟩

/-- **C119** (what does not hold) that `operator[]` of a constant value is defined for all pointers: behind
the last element its behaviour is undefined, and a member that is not there violates an assertion. -/
theorem C119_const_fails (xs : List (Json F)) (hx : xs.length < 2 ^ 31) (ms : List (Bytes × Json F)) (k : Bytes)
    (hk : ∀ x ∈ ms, x.1 ≠ k) :
    constPtr [digits xs.length] (.arr xs) = .ub ∧ constPtr [k] (.obj ms) = .assertFail := by
  constructor
  · rw [← toStr_eq, constPtr, if_neg (toStr_minus _), zeroLed_toStr, tokenIndex_toStr hx]
    simp
  · rw [constPtr, lookup_none_iff.mpr hk]

example : constPtr [digits 2] (.arr [.null, .null] : Json Unit) = .ub :=
  (C119_const_fails [.null, .null] (by simp) [] [] (by simp)).1

/-- **C120** (what holds) What is assigned to `v[ptr]` is what `at` finds for the pointer afterwards, also if
members or elements had to be made for it.  (A pointer with a token `-` is left out: it never leads to a
value.) -/
theorem C120_read_back (ts : List Bytes) (hts : [0x2d] ∉ ts) (v v' x : Json F)
    (h : indexPtrUpd (fun _ => .ok x) ts v = .ok v') : atPtr ts v' = .ok x := index_read hts h

example : indexPtrUpd (fun _ => .ok (.bool true)) [[0x61], [0x33]] exDoc =
    .ok (.obj [([0x2d], .null), ([0x61], .arr [.uint 10, .obj [([0x6d, 0x7e, 0x6e, 0x2f], .uint 11)], .null,
      .bool true])]) := rfl

/-- **C120** (what holds) Whatever is done through `v[ptr]`, a pointer that parts from `ptr` still finds the
value it found before. -/
theorem C120_frame (f : Json F → Outcome (Json F)) (ts us : List Bytes) (v v' w : Json F) (ho : Ordered v)
    (ha : Apart ts us v) (h : indexPtrUpd f ts v = .ok v') (hw : atPtr us v = .ok w) : atPtr us v' = .ok w :=
  index_frame ha ho h hw

example : ∃ v', indexPtrUpd (fun _ => .ok .null) [[0x61], [0x30]] exDoc = .ok v' ∧ atPtr exTokens v' = .ok (.uint 11) := by
  refine ⟨.obj [([0x2d], .null), ([0x61], .arr [.null, .obj [([0x6d, 0x7e, 0x6e, 0x2f], .uint 11)]])], rfl,
    C120_frame (fun _ => .ok .null) [[0x61], [0x30]] _ exDoc _ _ exDoc_ordered ?_ rfl rfl⟩
  refine .inMember (w := .arr [.uint 10, .obj [([0x6d, 0x7e, 0x6e, 0x2f], .uint 11)]]) (by simp) ?_
  refine .element (i := 0) (j := 1) ?_ ?_ (by omega)
  · exact ⟨[], [], [0x30], by simp, by simp, by simp, by simp [Digit], .inl ⟨rfl, by simp [decimal]⟩⟩
  · exact ⟨[], [], [0x31], by simp, by simp, by simp, by simp [Digit], .inl ⟨rfl, by simp [decimal]⟩⟩

/-- **C120** (what holds) An assignment through `v[ptr]` with the token `-` at an array appends to the array. -/
theorem C120_append (xs : List (Json F)) (hx : xs.length < 2 ^ 59 - 1) (x : Json F) :
    indexPtrUpd (fun _ => .ok x) [[0x2d]] (.arr xs) = .ok (.arr (xs ++ [x])) := by
  rw [indexPtrUpd, fromNull_null (by simp)]
  simp only [if_true, Outcome.bind_ok]
  rw [if_neg (by simp [zeroLed]), fillTo, if_pos (Nat.le_refl _)]
  simp only [Nat.sub_self, Nat.zero_add, maxSize]
  rw [if_neg (by omega)]
  simp [indexPtrUpd]

example : indexPtrUpd (fun _ => .ok .null) [[0x2d]] (.arr [.uint 1] : Json Unit) = .ok (.arr [.uint 1, .null]) :=
  C120_append _ (by simp) _

/-- **C120** (what holds) `v[ptr]` is never undefined, unless a token of the pointer is the number -1. -/
theorem C120_defined_partial (f : Json F → Outcome (Json F)) (hf : ∀ x, f x ≠ .ub) (ts : List Bytes)
    (hts : ∀ t ∈ ts, ¬ IntText t (-1)) (v : Json F) : indexPtrUpd f ts v ≠ .ub := by
  intro h
  rcases index_ub h with ⟨x, hx⟩ | ⟨t, ht, hi⟩
  · exact hf x hx
  · exact hts t ht hi

example : indexPtrUpd (fun _ => .ok .null) [[0x35]] (.arr [] : Json Unit) ≠ .ub := by
  refine C120_defined_partial _ (by simp) _ ?_ _
  rintro t ht h
  simp only [List.mem_singleton] at ht
  subst ht
  have := intText_index h
  revert this
  decide

/-- **C120** (what does not hold) that `v[ptr]` throws for the index -1: on an empty array the number of
elements to be made wraps around to 0, and the behaviour is undefined. -/
theorem C120_defined_fails (f : Json F → Outcome (Json F)) (ts : List Bytes) :
    indexPtrUpd f ([0x2d, 0x31] :: ts) (.arr []) = .ub := by
  have h : tokenIndex [0x2d, 0x31] = .ok (2 ^ 64 - 1) := by decide
  rw [indexPtrUpd, fromNull_null (by simp)]
  simp only [h, zeroLed, List.length_cons, List.length_nil, List.head?_cons]
  simp [fillTo]

end Verif.Json
