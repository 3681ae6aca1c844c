import Verif.Json.PropsIter

/-!
# C135: removing elements
-/

namespace Verif.Json

variable {F : Type}

theorem put_same (σ : Store F) (a : Nat) (v : Json F) : (σ.put a v) a = v := by simp [Store.put]

theorem eraseIdx_take {α : Type} {xs : List α} {i : Nat} (h : i < xs.length) :
    (xs.eraseIdx i).take i = xs.take i ∧ (xs.eraseIdx i).drop i = xs.drop (i + 1) := by
  constructor
  · rw [List.eraseIdx_eq_take_drop_succ, List.take_left' (by simp; omega)]
  · rw [List.eraseIdx_eq_take_drop_succ, List.drop_left' (by simp; omega)]

/-- **C135** (what holds) `erase(it)` at the `i`-th element removes that element and no other: an array
keeps the others in order, an object its other members, and any other value becomes null.  The iterator
given back is at the element after: a loop from it to the new end meets just the elements that followed. -/
theorem C135_one (σ : Store F) (a i n : Nat) {x : Iter} (hi : i < (elems (σ a)).length)
    (hx : stepped σ i (begin_ σ a) = .ok x) (hn : (elems (σ a)).length ≤ n) :
    ∃ w y, erase1 σ a x = .ok (w, y) ∧
      (∀ xs, σ a = .arr xs → w = .arr (xs.eraseIdx i)) ∧
      (∀ ms, σ a = .obj ms → w = .obj (ms.eraseIdx i)) ∧
      ((∀ xs, σ a ≠ .arr xs) → (∀ ms, σ a ≠ .obj ms) → w = .null) ∧
      elems w = (elems (σ a)).eraseIdx i ∧ size_ w + 1 = size_ (σ a) ∧
      walk (σ.put a w) n y (end_ (σ.put a w) a) = .ok ((elems (σ a)).drop (i + 1)) := by
  rw [begin_eq, stepped_pos i 0 (by omega)] at hx
  cases hx
  rw [Nat.zero_add]
  have main : ∃ w, erase1 σ a (posIt (σ a) a i) = .ok (w, posIt w a i) ∧
      (∀ xs, σ a = .arr xs → w = .arr (xs.eraseIdx i)) ∧
      (∀ ms, σ a = .obj ms → w = .obj (ms.eraseIdx i)) ∧
      ((∀ xs, σ a ≠ .arr xs) → (∀ ms, σ a ≠ .obj ms) → w = .null) ∧
      elems w = (elems (σ a)).eraseIdx i := by
    simp only [erase1, posIt_owner, ne_eq, not_true_eq_false, if_false, end_eq]
    revert hi
    cases hv : σ a with
    | null => intro hi; simp [elems] at hi
    | arr xs =>
      intro hi
      simp only [elems] at hi
      refine ⟨.arr (xs.eraseIdx i), by simp [posIt, erasePos, hi], ?_, ?_, ?_, rfl⟩
      · rintro ys ⟨rfl⟩; rfl
      · rintro ms ⟨⟩
      · intro h; exact absurd rfl (h xs)
    | obj ms =>
      intro hi
      have hi' : i < ms.length := by simpa [elems] using hi
      refine ⟨.obj (ms.eraseIdx i), by simp [posIt, erasePos, hi'], ?_, ?_, ?_, ?_⟩
      · rintro ys ⟨⟩
      · rintro ns ⟨rfl⟩; rfl
      · intro _ h; exact absurd rfl (h ms)
      · simp only [elems]
        apply List.ext_getElem?
        intro j
        simp only [List.getElem?_map, List.getElem?_eraseIdx]
        split <;> rfl
    | _ =>
      intro hi
      simp only [elems, List.length_singleton] at hi
      refine ⟨.null, by simp [posIt, elems, show i = 0 by omega], ?_, ?_, fun _ _ => rfl, by simp [elems, show i = 0 by omega]⟩
      · rintro xs ⟨⟩
      · rintro ms ⟨⟩
  obtain ⟨w, h1, h2, h3, h4, h5⟩ := main
  have hl : (elems w).length = (elems (σ a)).length - 1 := by rw [h5, List.length_eraseIdx, if_pos hi]
  refine ⟨w, posIt w a i, h1, h2, h3, h4, h5, by rw [← elems_length, ← elems_length]; omega, ?_⟩
  have hw := walk_pos (σ := σ.put a w) (a := a) n i (elems w).length (by omega) (by rw [put_same]; omega) (by omega)
  rw [end_eq]
  simp only [put_same] at hw ⊢
  rw [hw, List.take_length, h5, (eraseIdx_take hi).2]

example : erase1 (fun _ => (.arr [.int 1, .int 2, .int 3] : Json Nat)) 0 { owner := some 0, arrIt := some 1 } =
    .ok (.arr [.int 1, .int 3], { owner := some 0, arrIt := some 1 }) := rfl

/-- **C135** (what holds) `erase(first, last)` of an array or object removes the elements from `first` up to but
not including `last`, no other; the iterator given back is at the element after.  An empty range
removes nothing. -/
theorem C135_range_partial (σ : Store F) (a i j n : Nat) {x y : Iter} (hij : i ≤ j) (hj : j ≤ (elems (σ a)).length)
    (hc : (∃ xs, σ a = .arr xs) ∨ ∃ ms, σ a = .obj ms)
    (hx : stepped σ i (begin_ σ a) = .ok x) (hy : stepped σ j (begin_ σ a) = .ok y) (hn : (elems (σ a)).length < n) :
    ∃ w z, erase2 σ a x y = .ok (w, z) ∧
      (∀ xs, σ a = .arr xs → w = .arr (xs.take i ++ xs.drop j)) ∧
      (∀ ms, σ a = .obj ms → w = .obj (ms.take i ++ ms.drop j)) ∧
      (i = j → w = σ a) ∧
      walk (σ.put a w) n z (end_ (σ.put a w) a) = .ok ((elems (σ a)).drop j) := by
  rw [begin_eq, stepped_pos i 0 (by omega)] at hx
  rw [begin_eq, stepped_pos j 0 (by omega)] at hy
  cases hx
  cases hy
  simp only [Nat.zero_add]
  have main : ∃ w, erase2 σ a (posIt (σ a) a i) (posIt (σ a) a j) = .ok (w, posIt w a i) ∧
      (∀ xs, σ a = .arr xs → w = .arr (xs.take i ++ xs.drop j)) ∧
      (∀ ms, σ a = .obj ms → w = .obj (ms.take i ++ ms.drop j)) ∧
      (i = j → w = σ a) ∧
      elems w = (elems (σ a)).take i ++ (elems (σ a)).drop j := by
    simp only [erase2, posIt_owner, ne_eq, not_true_eq_false, or_self, if_false, end_eq]
    revert hj
    rcases hc with ⟨xs, hv⟩ | ⟨ms, hv⟩ <;> rw [hv]
    · intro hj
      simp only [elems] at hj
      refine ⟨.arr (xs.take i ++ xs.drop j), by simp [posIt, eraseRangePos, hij, hj], ?_, ?_, ?_, rfl⟩
      · rintro ys ⟨rfl⟩; rfl
      · rintro ms ⟨⟩
      · rintro rfl; simp
    · intro hj
      have hj' : j ≤ ms.length := by simpa [elems] using hj
      refine ⟨.obj (ms.take i ++ ms.drop j), by simp [posIt, eraseRangePos, hij, hj'], ?_, ?_, ?_, ?_⟩
      · rintro ys ⟨⟩
      · rintro ns ⟨rfl⟩; rfl
      · rintro rfl; simp
      · simp [elems]
  obtain ⟨w, h1, h2, h3, h4, h5⟩ := main
  have hl : (elems w).length = i + ((elems (σ a)).length - j) := by rw [h5]; simp; omega
  refine ⟨w, posIt w a i, h1, h2, h3, h4, ?_⟩
  have hw := walk_pos (σ := σ.put a w) (a := a) n i (elems w).length (by omega) (by rw [put_same]; omega) (by omega)
  rw [end_eq]
  simp only [put_same] at hw ⊢
  rw [hw, List.take_length, h5, List.drop_left' (by simp; omega)]

example : erase2 (fun _ => (.arr [.int 1, .int 2, .int 3] : Json Nat)) 0 { owner := some 0, arrIt := some 0 }
    { owner := some 0, arrIt := some 2 } = .ok (.arr [.int 3], { owner := some 0, arrIt := some 0 }) := rfl

/-- **C135** A number, a string or a boolean becomes null by `erase(begin(), end())`; any other range is
refused (204). -/
theorem C135_scalar (σ : Store F) (a : Nat) (x y : Iter) (hx : x.owner = some a) (hy : y.owner = some a)
    (ha : ∀ xs, σ a ≠ .arr xs) (ho : ∀ ms, σ a ≠ .obj ms) (hn : σ a ≠ .null) :
    erase2 σ a (begin_ σ a) (end_ σ a) = .ok (.null, end_ σ a) ∧
    (¬ (x.prim = 0 ∧ y.prim = 1) → erase2 σ a x y = .throws "invalid_iterator.204") ∧
    (x.prim ≠ 0 → erase1 σ a x = .throws "invalid_iterator.205") := by
  refine ⟨?_, fun h => ?_, fun h => ?_⟩
  · rw [begin_eq, end_eq]
    simp only [erase2, posIt_owner, end_eq]
    cases hv : σ a with
    | arr xs => exact absurd hv (ha xs)
    | obj ms => exact absurd hv (ho ms)
    | null => exact absurd hv hn
    | _ => simp [posIt, elems]
  · simp only [erase2, hx, hy]
    have h' : x.prim ≠ 0 ∨ y.prim ≠ 1 := by omega
    cases hv : σ a with
    | arr xs => exact absurd hv (ha xs)
    | obj ms => exact absurd hv (ho ms)
    | null => exact absurd hv hn
    | _ => simp [h']
  · simp only [erase1, hx]
    cases hv : σ a with
    | arr xs => exact absurd hv (ha xs)
    | obj ms => exact absurd hv (ho ms)
    | null => exact absurd hv hn
    | _ => simp [h]

example : erase2 (fun _ => (.str [97] : Json Nat)) 0 (begin_ (fun _ => (.str [97] : Json Nat)) 0)
    (end_ (fun _ => (.str [97] : Json Nat)) 0) = .ok (.null, { owner := some 0, prim := 1 }) := rfl

/-- **C135** (what does not hold) Erasing an empty range is not always without effect, as the documentation
says: of a number it throws. -/
theorem C135_empty_range_fails : ∃ (σ : Store Nat) (a : Nat),
    erase2 σ a (begin_ σ a) (begin_ σ a) = .throws "invalid_iterator.204" ∧
    erase2 σ a (end_ σ a) (end_ σ a) = .throws "invalid_iterator.204" :=
  ⟨fun _ => .int 5, 0, rfl, rfl⟩

/-- **C135** Iterators of another value are refused (202, 203), and null has nothing to remove (307). -/
theorem C135_refuses (σ : Store F) (a : Nat) (x y : Iter) :
    (x.owner ≠ some a → erase1 σ a x = .throws "invalid_iterator.202") ∧
    (x.owner ≠ some a ∨ y.owner ≠ some a → erase2 σ a x y = .throws "invalid_iterator.203") ∧
    (σ a = .null → x.owner = some a → y.owner = some a →
      erase1 σ a x = .throws "type_error.307" ∧ erase2 σ a x y = .throws "type_error.307") := by
  refine ⟨fun h => by rw [erase1, if_pos h], fun h => by rw [erase2, if_pos h], fun h hx hy => ?_⟩
  simp [erase1, erase2, hx, hy, h]

example : erase1 (fun _ => (.arr [.null] : Json Nat)) 0 (begin_ (fun _ => (.arr [.null] : Json Nat)) 1) =
    .throws "invalid_iterator.202" := rfl

/-- **C135** `erase(name)` removes the member of that name if there is one and no other; the number given back
is the number of members removed, 1 or 0.  Anything but an object is refused. -/
theorem C135_key (k : Bytes) (v : Json F) :
    (∀ ms, v = .obj ms → SortedM ms → ∃ ns c, eraseK k v = .ok (.obj ns, c) ∧ lookup k ns = none ∧ SortedM ns ∧
      (∀ k', k' ≠ k → lookup k' ns = lookup k' ms) ∧ c = count_ k v ∧ ns.length + c = ms.length) ∧
    ((∀ ms, v ≠ .obj ms) → eraseK k v = .throws "type_error.307") := by
  constructor
  · rintro ms rfl hs
    have hlen : ∀ ms : List (Bytes × Json F), (eraseKey k ms).length + (if findPos k ms = ms.length then 0 else 1) = ms.length := by
      intro ms
      induction ms with
      | nil => rfl
      | cons e ms ih =>
        rw [eraseKey, findPos]
        by_cases hk : keyLt k e.1 = true ∨ keyLt e.1 k = true
        · rw [if_pos hk, if_pos hk]
          simp only [List.length_cons, Nat.add_right_cancel_iff]
          omega
        · rw [if_neg hk, if_neg hk]
          simp
    exact ⟨eraseKey k ms, _, rfl, lookup_eraseKey hs, sorted_eraseKey hs, fun k' hk => lookup_eraseKey_ne hk ms, rfl, hlen ms⟩
  · intro h
    cases v with
    | obj ms => exact absurd rfl (h ms)
    | _ => rfl

example : eraseK [97] (.obj [([97], .int 1), ([98], .int 2)] : Json Nat) = .ok (.obj [([98], .int 2)], 1) := rfl
example : SortedM ([([97], .int 1), ([98], .int 2)] : List (Bytes × Json Nat)) := by
  simp [SortedM]; decide

/-- **C135** `erase(index)` removes that element of an array and no other; an index that is not there is refused
(401), and so is anything but an array (307). -/
theorem C135_index (i : Nat) (v : Json F) :
    (∀ xs, v = .arr xs → (i < xs.length → eraseI i v = .ok (.arr (xs.eraseIdx i))) ∧
      (xs.length ≤ i → eraseI i v = .throws "out_of_range.401")) ∧
    ((∀ xs, v ≠ .arr xs) → eraseI i v = .throws "type_error.307") := by
  constructor
  · rintro xs rfl
    exact ⟨fun h => by rw [eraseI, if_neg (by omega)], fun h => by rw [eraseI, if_pos h]⟩
  · intro h
    cases v with
    | arr xs => exact absurd rfl (h xs)
    | _ => rfl

example : eraseI 1 (.arr [.int 1, .int 2, .int 3] : Json Nat) = .ok (.arr [.int 1, .int 3]) := rfl

/-- what is left of a value when the elements with the property are gone -/
def without (p : Json F → Bool) : Json F → Json F
  | .null => .null
  | .arr xs => .arr (xs.filter fun v => !p v)
  | .obj ms => .obj (ms.filter fun e => !p e.2)
  | v => if p v then .null else v

/-- the loop, once it is at the `i`-th element of an array -/
theorem eraseLoop_arr (p : Json F → Bool) (a : Nat) : ∀ (n : Nat) (σ : Store F) (xs : List (Json F)) (i : Nat),
    σ a = .arr xs → i ≤ xs.length → xs.length - i < n →
    eraseLoop p a n σ (posIt (σ a) a i) = .ok (.arr (xs.take i ++ (xs.drop i).filter fun v => !p v))
  | 0, _, _, _, _, _, hn => by omega
  | n + 1, σ, xs, i, hv, hi, hn => by
    have hle : (elems (σ a)).length = xs.length := by rw [hv]; rfl
    rw [eraseLoop, end_eq, ne_pos (by omega) (by omega), Outcome.bind_ok, hle]
    by_cases h : i = xs.length
    · rw [if_neg (by simpa using h), hv]
      subst h
      simp
    · have hl : i < xs.length := by omega
      rw [if_pos (by simpa using h), deref_pos (by omega), Outcome.bind_ok]
      have hd : xs.drop i = xs[i] :: xs.drop (i + 1) := List.drop_eq_getElem_cons hl
      have he : (elems (σ a))[i]'(by omega) = xs[i] := by simp [hv, elems]
      rw [he]
      by_cases hp : p xs[i] = true
      · rw [if_pos hp]
        have h1 : erase1 σ a (posIt (σ a) a i) = .ok (.arr (xs.eraseIdx i), posIt (.arr (xs.eraseIdx i)) a i) := by
          simp [erase1, posIt, end_, hv, erasePos, hl]
        rw [h1, Outcome.bind_ok]
        have := eraseLoop_arr p a n (σ.put a (.arr (xs.eraseIdx i))) (xs.eraseIdx i) i (put_same _ _ _)
          (by rw [List.length_eraseIdx, if_pos hl]; omega) (by rw [List.length_eraseIdx, if_pos hl]; omega)
        rw [put_same] at this
        rw [this, (eraseIdx_take hl).1, (eraseIdx_take hl).2, hd, List.filter_cons_of_neg (by simp [hp])]
      · rw [if_neg hp, incr_pos (by omega), Outcome.bind_ok, eraseLoop_arr p a n σ xs (i + 1) hv (by omega) (by omega), hd,
          List.filter_cons_of_pos (by simpa using hp), List.take_succ_eq_append_getElem hl, List.append_assoc]
        rfl

/-- the loop, once it is at the `i`-th member of an object -/
theorem eraseLoop_obj (p : Json F → Bool) (a : Nat) : ∀ (n : Nat) (σ : Store F) (xs : List (Bytes × Json F)) (i : Nat),
    σ a = .obj xs → i ≤ xs.length → xs.length - i < n →
    eraseLoop p a n σ (posIt (σ a) a i) = .ok (.obj (xs.take i ++ (xs.drop i).filter fun e => !p e.2))
  | 0, _, _, _, _, _, hn => by omega
  | n + 1, σ, xs, i, hv, hi, hn => by
    have hle : (elems (σ a)).length = xs.length := by rw [hv]; simp [elems]
    rw [eraseLoop, end_eq, ne_pos (by omega) (by omega), Outcome.bind_ok, hle]
    by_cases h : i = xs.length
    · rw [if_neg (by simpa using h), hv]
      subst h
      simp
    · have hl : i < xs.length := by omega
      rw [if_pos (by simpa using h), deref_pos (by omega), Outcome.bind_ok]
      have hd : xs.drop i = xs[i] :: xs.drop (i + 1) := List.drop_eq_getElem_cons hl
      have he : (elems (σ a))[i]'(by omega) = xs[i].2 := by simp [hv, elems]
      rw [he]
      by_cases hp : p xs[i].2 = true
      · rw [if_pos hp]
        have h1 : erase1 σ a (posIt (σ a) a i) = .ok (.obj (xs.eraseIdx i), posIt (.obj (xs.eraseIdx i)) a i) := by
          simp [erase1, posIt, end_, hv, erasePos, hl]
        rw [h1, Outcome.bind_ok]
        have := eraseLoop_obj p a n (σ.put a (.obj (xs.eraseIdx i))) (xs.eraseIdx i) i (put_same _ _ _)
          (by rw [List.length_eraseIdx, if_pos hl]; omega) (by rw [List.length_eraseIdx, if_pos hl]; omega)
        rw [put_same] at this
        rw [this, (eraseIdx_take hl).1, (eraseIdx_take hl).2, hd, List.filter_cons_of_neg (by simp [hp])]
      · rw [if_neg hp, incr_pos (by omega), Outcome.bind_ok, eraseLoop_obj p a n σ xs (i + 1) hv (by omega) (by omega), hd,
          List.filter_cons_of_pos (by simpa using hp), List.take_succ_eq_append_getElem hl, List.append_assoc]
        rfl

/-- **C135** (what holds) The loop that removes elements as it goes, with `it = j.erase(it)` for an element to
remove and `++it` for one to keep, removes exactly the elements with the property, in as many rounds as
there are elements, for a value of any kind. -/
theorem C135_loop (p : Json F → Bool) (σ : Store F) (a n : Nat) (hn : (elems (σ a)).length < n) :
    eraseLoop p a n σ (begin_ σ a) = .ok (without p (σ a)) := by
  rw [begin_eq]
  cases hv : σ a with
  | arr xs =>
    have := eraseLoop_arr p a n σ xs 0 hv (Nat.zero_le _) (by rw [hv] at hn; simp only [elems] at hn; omega)
    rw [hv] at this
    simpa [without] using this
  | obj ms =>
    have := eraseLoop_obj p a n σ ms 0 hv (Nat.zero_le _) (by rw [hv] at hn; simp only [elems, List.length_map] at hn; omega)
    rw [hv] at this
    simpa [without] using this
  | null =>
    obtain ⟨n, rfl⟩ : ∃ m, n = m + 1 := ⟨n - 1, by omega⟩
    simp [eraseLoop, end_, iterNe, iterEq, posIt, hv, without]
  | _ =>
    obtain ⟨n, rfl⟩ : ∃ m, n = m + 1 + 1 := ⟨n - 2, by rw [hv] at hn; simp only [elems, List.length_singleton] at hn; omega⟩
    rw [eraseLoop]
    simp only [end_, iterNe, iterEq, posIt, hv, deref, without]
    simp only [ne_eq, not_true_eq_false, if_false, Outcome.bind_ok]
    by_cases hp : p (σ a) = true
    · rw [hv] at hp
      simp [hp, erase1, end_, hv, eraseLoop, iterNe, iterEq, put_same]
    · rw [hv] at hp
      simp [hp, incr, step_, diffT, eraseLoop, end_, hv, iterNe, iterEq]

/-- the numbers above 1 -/
example : eraseLoop (fun v => match v with | .int i => decide (1 < i) | _ => false) 0 5
    (fun _ => (.arr [.int 2, .int 3, .int 1, .int 4] : Json Nat))
    (begin_ (fun _ => (.arr [.int 2, .int 3, .int 1, .int 4] : Json Nat)) 0) = .ok (.arr [.int 1]) :=
  C135_loop _ (fun _ => (.arr [.int 2, .int 3, .int 1, .int 4] : Json Nat)) 0 5 (by simp [elems])

/-- **C135** `clear()` leaves a value of the same kind: an empty array, object or string, zero, or `false`; null
stays null. -/
theorem C135_clear (zero : F) (v : Json F) :
    (∀ xs, v = .arr xs → clear_ zero v = .arr []) ∧ (∀ ms, v = .obj ms → clear_ zero v = .obj []) ∧
    (∀ s, v = .str s → clear_ zero v = .str []) ∧ (∀ b, v = .bool b → clear_ zero v = .bool false) ∧
    (∀ i, v = .int i → clear_ zero v = .int 0) ∧ (∀ n, v = .uint n → clear_ zero v = .uint 0) ∧
    (∀ x, v = .float x → clear_ zero v = .float zero) ∧ (v = .null → clear_ zero v = .null) := by
  refine ⟨?_, ?_, ?_, ?_, ?_, ?_, ?_, ?_⟩ <;> (intros; subst_vars; rfl)

example : clear_ 0 (.arr [.int 1] : Json Nat) = .arr [] := rfl

end Verif.Json
