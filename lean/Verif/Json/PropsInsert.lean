import Verif.Json.PropsErase

/-!
# C136: adding elements; C137: values from lists in braces
-/

namespace Verif.Json

variable {F : Type}

/-! ## Lemmas about maps -/

theorem lookup_emplaceKey (k k' : Bytes) (v : Json F) (ms : List (Bytes × Json F)) :
    lookup k' (emplaceKey k v ms) = (lookup k' ms).or (if k' = k then some v else none) := by
  rw [emplaceKey]
  cases h : lookup k ms with
  | some w =>
    by_cases e : k' = k
    · rw [e, h]; rfl
    · rw [if_neg e]; simp
  | none =>
    by_cases e : k' = k
    · rw [e, lookup_setKey, h, if_pos rfl]; rfl
    · rw [if_neg e, lookup_setKey_ne e]; simp

theorem sorted_emplaceKey {k : Bytes} {v : Json F} {ms : List (Bytes × Json F)} (h : SortedM ms) :
    SortedM (emplaceKey k v ms) := by
  rw [emplaceKey]
  cases lookup k ms with
  | some w => exact h
  | none => exact sorted_setKey h

theorem emplaceAll : ∀ (es ms : List (Bytes × Json F)), SortedM ms →
    SortedM (es.foldl (fun ms e => emplaceKey e.1 e.2 ms) ms) ∧
    ∀ k, lookup k (es.foldl (fun ms e => emplaceKey e.1 e.2 ms) ms) = (lookup k ms).or (lookup k es)
  | [], ms, h => ⟨h, fun k => by simp [lookup]⟩
  | e :: es, ms, h => by
    obtain ⟨h1, h2⟩ := emplaceAll es (emplaceKey e.1 e.2 ms) (sorted_emplaceKey h)
    refine ⟨h1, fun k => ?_⟩
    rw [List.foldl_cons, h2 k, lookup_emplaceKey, lookup_cons, Option.or_assoc]
    congr 1
    by_cases hk : k = e.1
    · rw [if_pos hk, if_pos hk]; rfl
    · rw [if_neg hk, if_neg hk]; rfl

theorem lookup_sorted_tail {e : Bytes × Json F} {es : List (Bytes × Json F)} (h : SortedM (e :: es)) :
    lookup e.1 es = none := by
  rw [lookup_none_iff]
  intro x hx hx'
  have := (List.pairwise_cons.1 h).1 x hx
  rw [hx'] at this
  exact key_irrefl _ this

theorem lookup_assignAll : ∀ (es ms : List (Bytes × Json F)), SortedM ms → SortedM es →
    SortedM (assignAll ms es) ∧ ∀ k, lookup k (assignAll ms es) = (lookup k es).or (lookup k ms)
  | [], ms, h, _ => ⟨h, fun k => by simp [lookup, assignAll]⟩
  | e :: es, ms, h, he => by
    obtain ⟨h1, h2⟩ := lookup_assignAll es (setKey e.1 e.2 ms) (sorted_setKey h) (List.pairwise_cons.1 he).2
    refine ⟨h1, fun k => ?_⟩
    rw [assignAll] at h2 ⊢
    rw [List.foldl_cons, h2 k, lookup_cons]
    by_cases hk : k = e.1
    · rw [if_pos hk, hk, lookup_setKey, lookup_sorted_tail he]; rfl
    · rw [if_neg hk, lookup_setKey_ne hk]

theorem sorted_slice {ns : List (Bytes × Json F)} (h : SortedM ns) (i n : Nat) : SortedM ((ns.drop i).take n) :=
  List.Pairwise.sublist ((List.take_sublist _ _).trans (List.drop_sublist _ _)) h

/-! ## C136 -/

/-- **C136** (what holds) `insert` into an array puts the new values before the place given and keeps the old
ones in order; the iterator given back is at the first new value: a loop from it meets the new values
and then those that followed the place. -/
theorem C136_insert (σ : Store F) (a i n : Nat) (xs vs : List (Json F)) {x : Iter} (hv : σ a = .arr xs)
    (hi : i ≤ xs.length) (hx : stepped σ i (begin_ σ a) = .ok x) (hn : xs.length + vs.length < n) :
    ∃ y, insertL σ a x vs = .ok (.arr (xs.take i ++ vs ++ xs.drop i), y) ∧
      walk (σ.put a (.arr (xs.take i ++ vs ++ xs.drop i))) n y
        (end_ (σ.put a (.arr (xs.take i ++ vs ++ xs.drop i))) a) = .ok (vs ++ xs.drop i) := by
  rw [begin_eq, stepped_pos i 0 (by rw [hv]; simpa [elems] using hi)] at hx
  cases hx
  refine ⟨posIt (.arr (xs.take i ++ vs ++ xs.drop i)) a i, ?_, ?_⟩
  · simp [insertL, hv, posIt, insertPos, hi]
  · have hw := walk_pos (σ := σ.put a (.arr (xs.take i ++ vs ++ xs.drop i))) (a := a) n i
      (xs.take i ++ vs ++ xs.drop i).length (by simp; omega) (by rw [put_same]; exact Nat.le_refl _) (by simp; omega)
    rw [end_eq]
    simp only [put_same, elems] at hw ⊢
    rw [hw, List.take_length, List.append_assoc, List.drop_left' (by simp; omega)]

example : insertL (fun _ => (.arr [.int 1, .int 4] : Json Nat)) 0 { owner := some 0, arrIt := some 1 } [.int 2, .int 3] =
    .ok (.arr [.int 1, .int 2, .int 3, .int 4], { owner := some 0, arrIt := some 1 }) := rfl

/-- **C136** (what holds) `insert` of the elements between two places of another array puts in just these. -/
theorem C136_insert_range_partial (σ : Store F) (a b i j l : Nat) (xs ys : List (Json F)) {x y z : Iter} (hab : a ≠ b)
    (hv : σ a = .arr xs) (hw : σ b = .arr ys) (hl : l ≤ xs.length) (hij : i ≤ j) (hj : j ≤ ys.length)
    (hz : stepped σ l (begin_ σ a) = .ok z) (hx : stepped σ i (begin_ σ b) = .ok x)
    (hy : stepped σ j (begin_ σ b) = .ok y) :
    ∃ r, insertR σ a z x y = .ok (.arr (xs.take l ++ (ys.take j).drop i ++ xs.drop l), r) := by
  rw [begin_eq, stepped_pos l 0 (by rw [hv]; simpa [elems] using hl)] at hz
  rw [begin_eq, stepped_pos i 0 (by rw [hw]; simp only [elems]; omega)] at hx
  rw [begin_eq, stepped_pos j 0 (by rw [hw]; simpa [elems] using hj)] at hy
  cases hz
  cases hx
  cases hy
  refine ⟨{ owner := some a, arrIt := some l }, ?_⟩
  simp [insertR, hv, hw, posIt, slice, Ne.symm hab, hij, hj, insertPos, hl, List.drop_take]

example : insertR (fun b => if b = 0 then (.arr [.int 1] : Json Nat) else .arr [.int 7, .int 8, .int 9]) 0
    { owner := some 0, arrIt := some 1 } { owner := some 1, arrIt := some 1 } { owner := some 1, arrIt := some 3 } =
    .ok (.arr [.int 1, .int 8, .int 9], { owner := some 0, arrIt := some 1 }) := rfl

/-- **C136** (what does not hold) `insert` of all elements of an object, or of a number, into an array inserts
nothing, and does not say so. -/
theorem C136_insert_range_fails : ∃ (σ : Store Nat) (a b c : Nat), elems (σ b) ≠ [] ∧ elems (σ c) ≠ [] ∧
    (∃ r, insertR σ a (begin_ σ a) (begin_ σ b) (end_ σ b) = .ok (σ a, r)) ∧
    ∃ r, insertR σ a (begin_ σ a) (begin_ σ c) (end_ σ c) = .ok (σ a, r) :=
  ⟨fun b => if b = 0 then .arr [] else if b = 1 then .obj [([97], .int 1)] else .int 5, 0, 1, 2,
    by simp [elems], by simp [elems], ⟨_, rfl⟩, ⟨_, rfl⟩⟩

/-- **C136** Into anything but an array nothing can be inserted at a place (309), an iterator of another value is
refused (202), and so is a range of two values (210) or of the array itself (211). -/
theorem C136_refuses (σ : Store F) (a : Nat) (z x y : Iter) (vs : List (Json F)) :
    ((∀ xs, σ a ≠ .arr xs) → insertL σ a z vs = .throws "type_error.309" ∧ insertR σ a z x y = .throws "type_error.309") ∧
    (∀ xs, σ a = .arr xs →
      (z.owner ≠ some a → insertL σ a z vs = .throws "invalid_iterator.202" ∧ insertR σ a z x y = .throws "invalid_iterator.202") ∧
      (z.owner = some a → x.owner ≠ y.owner → insertR σ a z x y = .throws "invalid_iterator.210") ∧
      (z.owner = some a → x.owner = some a → y.owner = some a → insertR σ a z x y = .throws "invalid_iterator.211")) ∧
    ((∀ ms, σ a ≠ .obj ms) → insertM σ a x y = .throws "type_error.309") ∧
    (∀ ms, σ a = .obj ms → (x.owner ≠ y.owner → insertM σ a x y = .throws "invalid_iterator.210") ∧
      (∀ b, x.owner = some b → y.owner = some b → (∀ ns, σ b ≠ .obj ns) → insertM σ a x y = .throws "invalid_iterator.202")) := by
  refine ⟨fun h => ?_, fun xs h => ⟨fun hz => ?_, fun hz hxy => ?_, fun hz hx hy => ?_⟩, fun h => ?_,
    fun ms h => ⟨fun hxy => ?_, fun b hx hy hb => ?_⟩⟩
  · rw [insertL, insertR]
    cases hv : σ a with
    | arr xs => exact absurd hv (h xs)
    | _ => exact ⟨rfl, rfl⟩
  · rw [insertL, insertR, h]; simp [hz]
  · rw [insertR, h]; simp [hz, hxy]
  · rw [insertR, h]; simp [hz, hx, hy]
  · rw [insertM]
    cases hv : σ a with
    | obj xs => exact absurd hv (h xs)
    | _ => rfl
  · rw [insertM, h]; simp [hxy]
  · simp only [insertM, h, hx, hy, ne_eq, not_true_eq_false, if_false]

example : insertL (fun _ => (.obj [] : Json Nat)) 0 (begin_ (fun _ => (.obj [] : Json Nat)) 0) [.null] =
    .throws "type_error.309" := rfl

/-- **C136** (what holds) `insert` of members of another object adds those whose names are new and keeps the
values there are. -/
theorem C136_insert_members_partial (σ : Store F) (a b i j : Nat) (ms ns : List (Bytes × Json F)) {x y : Iter} (hab : a ≠ b)
    (hv : σ a = .obj ms) (hw : σ b = .obj ns) (hs : SortedM ms) (hij : i ≤ j) (hj : j ≤ ns.length)
    (hx : stepped σ i (begin_ σ b) = .ok x) (hy : stepped σ j (begin_ σ b) = .ok y) :
    ∃ ws, insertM σ a x y = .ok (.obj ws) ∧ SortedM ws ∧
      ∀ k, lookup k ws = (lookup k ms).or (lookup k ((ns.take j).drop i)) := by
  rw [begin_eq, stepped_pos i 0 (by rw [hw]; simp only [elems, List.length_map]; omega)] at hx
  rw [begin_eq, stepped_pos j 0 (by rw [hw]; simpa [elems] using hj)] at hy
  cases hx
  cases hy
  refine ⟨((ns.take j).drop i).foldl (fun ms e => emplaceKey e.1 e.2 ms) ms, ?_, emplaceAll _ _ hs⟩
  simp [insertM, hv, hw, posIt, Ne.symm hab, between, hij, hj, List.drop_take]

example : insertM (fun b => if b = 0 then (.obj [([97], .int 1)] : Json Nat) else .obj [([97], .int 7), ([98], .int 8)]) 0
    { owner := some 1, objIt := some 0 } { owner := some 1, objIt := some 2 } =
    .ok (.obj [([97], .int 1), ([98], .int 8)]) := rfl

/-- **C136** (what does not hold) `insert` of an object's own members is not refused, as it is for an array, but
undefined. -/
theorem C136_insert_members_fails : ∃ (σ : Store Nat) (a : Nat), insertM σ a (begin_ σ a) (end_ σ a) = .ub :=
  ⟨fun _ => .obj [([97], .int 1)], 0, rfl⟩

/-- **C136** (what holds) `update` with another object, or with the members between two of its places, gives
each of these members the value it has there, adding it if need be, and keeps all other members; null
counts as an empty object. -/
theorem C136_update (σ : Store F) (a b : Nat) (ms ns : List (Bytes × Json F)) (hab : a ≠ b)
    (hv : σ a = .obj ms ∨ σ a = .null ∧ ms = []) (hw : σ b = .obj ns) (hs : SortedM ms) (ht : SortedM ns) :
    (∃ ws, update1 σ a b = (.obj ws, .ok ()) ∧ SortedM ws ∧ ∀ k, lookup k ws = (lookup k ns).or (lookup k ms)) ∧
    ∀ i j x y, i ≤ j → j ≤ ns.length → stepped σ i (begin_ σ b) = .ok x → stepped σ j (begin_ σ b) = .ok y →
      ∃ ws, update2 σ a x y = (.obj ws, .ok ()) ∧ SortedM ws ∧
        ∀ k, lookup k ws = (lookup k ((ns.take j).drop i)).or (lookup k ms) := by
  have h1 : nullToObj σ a a = .obj ms := by
    rcases hv with h | ⟨h, rfl⟩
    · simp [nullToObj, h]
    · simp [nullToObj, h, Store.put]
  have h2 : nullToObj σ a b = .obj ns := by
    rcases hv with h | ⟨h, rfl⟩
    · simp [nullToObj, h, hw]
    · simp [nullToObj, h, Store.put, Ne.symm hab, hw]
  constructor
  · exact ⟨assignAll ms ns, by simp [update1, h1, h2], lookup_assignAll ns ms hs ht⟩
  · intro i j x y hij hj hx hy
    rw [begin_eq, stepped_pos i 0 (by rw [hw]; simp only [elems, List.length_map]; omega)] at hx
    rw [begin_eq, stepped_pos j 0 (by rw [hw]; simpa [elems] using hj)] at hy
    cases hx
    cases hy
    refine ⟨assignAll ms ((ns.take j).drop i), ?_, ?_⟩
    · simp [update2, h1, h2, hw, posIt, between, hij, hj, List.drop_take]
    · rw [List.drop_take]
      exact lookup_assignAll _ ms hs (sorted_slice ht _ _)

example : update1 (fun b => if b = 0 then (.obj [([97], .int 1), ([99], .int 3)] : Json Nat) else .obj [([97], .int 7), ([98], .int 8)]) 0 1 =
    (.obj [([97], .int 7), ([98], .int 8), ([99], .int 3)], .ok ()) := rfl

/-- **C136** An update that is refused leaves the value as it was, unless it was null. -/
theorem C136_update_refused (σ : Store F) (a b : Nat) (x y : Iter) (hn : σ a ≠ .null) :
    ((update1 σ a b).2 ≠ .ok () → (update1 σ a b).1 = σ a) ∧
    ((update2 σ a x y).2 ≠ .ok () → (update2 σ a x y).1 = σ a) ∧
    ((∀ ms, σ a ≠ .obj ms) → (update1 σ a b).2 = .throws "type_error.312" ∧ (update2 σ a x y).2 = .throws "type_error.312") := by
  have h1 : nullToObj σ a = σ := by
    rw [nullToObj]
    cases hv : σ a with
    | null => exact absurd hv hn
    | _ => rfl
  refine ⟨?_, ?_, fun h => ?_⟩
  · rw [update1]
    simp only [h1]
    cases hv : σ a with
    | obj ms =>
      simp only
      cases hw : σ b with
      | obj ns => simp
      | _ => simp
    | _ => simp
  · rw [update2]
    simp only [h1]
    cases hv : σ a with
    | obj ms =>
      simp only
      split
      · simp
      · split
        · simp
        · split
          · split <;> simp
          · simp
    | _ => simp
  · simp only [update1, update2, h1]
    cases hv : σ a with
    | obj ms => exact absurd hv (h ms)
    | _ => exact ⟨trivial, trivial⟩

example : update1 (fun b => if b = 0 then (.obj [([97], .int 1)] : Json Nat) else .int 5) 0 1 =
    (.obj [([97], .int 1)], .throws "type_error.312") := rfl

/-- **C136** (what does not hold) A null is an empty object after an update that is refused; and the update of
a null with itself is not refused, as that with another null is. -/
theorem C136_update_null_fails : (∃ (σ : Store Nat) (a b : Nat), σ a = .null ∧
      update1 σ a b = (.obj [], .throws "type_error.312")) ∧
    (∃ (σ : Store Nat) (a : Nat) (x y : Iter), σ a = .null ∧ update2 σ a x y = (.obj [], .throws "invalid_iterator.210")) ∧
    ∃ (σ : Store Nat) (a b : Nat), σ a = .null ∧ σ b = .null ∧ update1 σ a a = (.obj [], .ok ()) ∧
      (update1 σ a b).2 = .throws "type_error.312" :=
  ⟨⟨fun b => if b = 0 then .null else .int 5, 0, 1, rfl, rfl⟩,
    ⟨fun _ => .null, 0, { owner := some 1 }, { owner := some 2 }, rfl, rfl⟩, ⟨fun _ => .null, 0, 1, rfl, rfl, rfl, rfl⟩⟩

/-- **C136** The update of an object with itself changes nothing. -/
theorem C136_update_self (σ : Store F) (a : Nat) (ms : List (Bytes × Json F)) (hv : σ a = .obj ms) (hs : SortedM ms) :
    update1 σ a a = (σ a, .ok ()) := by
  have h1 : nullToObj σ a = σ := by simp [nullToObj, hv]
  obtain ⟨h2, h3⟩ := lookup_assignAll ms ms hs hs
  simp only [update1, h1, hv]
  rw [map_ext h2 hs fun k => by rw [h3 k]; cases lookup k ms <;> rfl]

example : SortedM ([([97], .int 1), ([99], .int 3)] : List (Bytes × Json Nat)) := by simp [SortedM]; decide

/-- the loop over a part, once it is at the `i`-th member -/
theorem updateInnerLoop_spec (k0 : Bytes) (p : Path) (ns : List (Bytes × Json F)) : ∀ (n i : Nat) (ms : List (Bytes × Json F)),
    getAt (.key k0 :: p) (.obj ms) = some (.obj ns) → i ≤ ns.length → ns.length - i < n →
    (updateInnerLoop (.key k0 :: p) n i ms = .ub ↔ ∃ e ∈ ns.drop i, e.1 = k0) ∧
    ((∀ e ∈ ns.drop i, e.1 ≠ k0) → updateInnerLoop (.key k0 :: p) n i ms = .ok (.obj (assignAll ms (ns.drop i))))
  | 0, _, _, _, _, hn => by omega
  | n + 1, i, ms, hg, hi, hn => by
    rw [updateInnerLoop, hg]
    simp only
    by_cases h : i = ns.length
    · subst h
      rw [List.getElem?_eq_none (Nat.le_refl _), List.drop_eq_nil_of_le (Nat.le_refl _)]
      simp [assignAll]
    · have hl : i < ns.length := by omega
      have hd : ns.drop i = ns[i] :: ns.drop (i + 1) := List.drop_eq_getElem_cons hl
      rw [List.getElem?_eq_getElem hl, hd]
      simp only
      by_cases hk : ns[i].1 = k0
      · rw [if_pos hk]
        refine ⟨⟨fun _ => ⟨_, List.mem_cons_self, hk⟩, fun _ => rfl⟩, fun h => absurd hk (h _ List.mem_cons_self)⟩
      · rw [if_neg hk]
        have hg' : getAt (.key k0 :: p) (.obj (setKey ns[i].1 ns[i].2 ms)) = some (.obj ns) := by
          rw [getAt, lookup_setKey_ne (Ne.symm hk)]
          rw [getAt] at hg
          exact hg
        obtain ⟨h1, h2⟩ := updateInnerLoop_spec k0 p ns n (i + 1) (setKey ns[i].1 ns[i].2 ms) hg' (by omega) (by omega)
        constructor
        · rw [h1]
          constructor
          · rintro ⟨e, he, hek⟩; exact ⟨e, List.mem_cons_of_mem _ he, hek⟩
          · rintro ⟨e, he, hek⟩
            rcases List.mem_cons.mp he with rfl | he
            · exact absurd hek hk
            · exact ⟨e, he, hek⟩
        · intro h
          rw [h2 fun e he => h e (List.mem_cons_of_mem _ he)]
          rfl

/-- **C136** An object can be updated with an object that is part of it, in its member `k0`, exactly if that part
has no member of the name `k0`: then the result is that of an update with a copy of the part, and otherwise
the loop runs over what it has destroyed. -/
theorem C136_update_part_iff (k0 : Bytes) (p : Path) (ms ns : List (Bytes × Json F)) (h : getAt (.key k0 :: p) (.obj ms) = some (.obj ns)) :
    (updateInner (.key k0 :: p) (.obj ms) = .ub ↔ lookup k0 ns ≠ none) ∧
    (lookup k0 ns = none → updateInner (.key k0 :: p) (.obj ms) = .ok (.obj (assignAll ms ns)) ∧
      update1 (fun b => if b = 0 then .obj ms else .obj ns) 0 1 = (.obj (assignAll ms ns), .ok ())) := by
  rw [updateInner, h]
  simp only
  obtain ⟨h1, h2⟩ := updateInnerLoop_spec k0 p ns (ns.length + 1) 0 ms h (Nat.zero_le _) (by omega)
  rw [List.drop_zero] at h1 h2
  constructor
  · rw [h1, ne_eq, lookup_none_iff]
    simp
  · intro hn
    rw [lookup_none_iff] at hn
    exact ⟨h2 hn, rfl⟩

/-- `{"a": {"a": 1}}` updated with its member `a`, and `{"a": {"b": 1}}` -/
example : updateInner [.key [97]] (.obj [([97], .obj [([97], .int 1)])] : Json Nat) = .ub ∧
    updateInner [.key [97]] (.obj [([97], .obj [([98], .int 1)])] : Json Nat) =
      .ok (.obj [([97], .obj [([98], .int 1)]), ([98], .int 1)]) := ⟨rfl, rfl⟩

/-- **C136** (what holds) `push_back` and `emplace_back` add the value at the end of an array, and make null an
array of it; the value added is the one there was before the call, also if it is the array itself.
Anything else is refused. -/
theorem C136_push_back_partial (σ : Store F) (a b : Nat) (v : Json F) :
    (∀ xs, σ a = .arr xs → pushBack σ a b = .ok (.arr (xs ++ [σ b])) ∧ emplaceBack v (σ a) = .ok (.arr (xs ++ [v]))) ∧
    (σ a = .null → (a ≠ b → pushBack σ a b = .ok (.arr [σ b])) ∧ emplaceBack v (σ a) = .ok (.arr [v])) ∧
    ((∀ xs, σ a ≠ .arr xs) → σ a ≠ .null →
      pushBack σ a b = .throws "type_error.308" ∧ emplaceBack v (σ a) = .throws "type_error.311") := by
  refine ⟨fun xs h => by simp [pushBack, emplaceBack, h], fun h => ⟨fun hab => by simp [pushBack, h, Store.put, Ne.symm hab], by simp [emplaceBack, h]⟩, fun h hn => ?_⟩
  rw [pushBack]
  cases hv : σ a with
  | arr xs => exact absurd hv (h xs)
  | null => exact absurd hv hn
  | _ => exact ⟨rfl, rfl⟩

example : pushBack (fun _ => (.arr [.int 1] : Json Nat)) 0 0 = .ok (.arr [.int 1, .arr [.int 1]]) := rfl

/-- **C136** (what does not hold) A null added to itself gives an array of an empty array, not of null. -/
theorem C136_push_back_fails : ∃ (σ : Store Nat) (a : Nat), σ a = .null ∧ pushBack σ a a = .ok (.arr [.arr []]) :=
  ⟨fun _ => .null, 0, rfl, rfl⟩

/-- **C136** `push_back` of a member and `emplace` add it if the name is new and otherwise change nothing;
`emplace` says which, and its iterator is at the member of that name.  Null becomes an object; anything
else is refused. -/
theorem C136_emplace (a : Nat) (k : Bytes) (v w : Json F) (ms : List (Bytes × Json F)) (hs : SortedM ms)
    (hw : w = .obj ms ∨ w = .null ∧ ms = []) :
    ∃ ns it, pushMember k v w = .ok (.obj ns) ∧ emplace a k v w = .ok (.obj ns, it, (lookup k ms).isNone) ∧ SortedM ns ∧
      (∀ k', lookup k' ns = (lookup k' ms).or (if k' = k then some v else none)) ∧
      ((lookup k ms).isSome → ns = ms) ∧
      ∀ σ : Store F, σ a = .obj ns → it = find_ σ a k ∧ iterKey σ it = .ok k ∧ deref σ it = .ok ((lookup k ms).getD v) := by
  have hl : lookup k (emplaceKey k v ms) = some ((lookup k ms).getD v) := by
    rw [lookup_emplaceKey, if_pos rfl]
    cases lookup k ms <;> rfl
  have key : ∀ σ : Store F, σ a = .obj (emplaceKey k v ms) →
      ({ owner := some a, objIt := some (findPos k (emplaceKey k v ms)) } : Iter) = find_ σ a k ∧
      iterKey σ { owner := some a, objIt := some (findPos k (emplaceKey k v ms)) } = .ok k ∧
      deref σ { owner := some a, objIt := some (findPos k (emplaceKey k v ms)) } = .ok ((lookup k ms).getD v) := by
    intro σ hσ
    have h1 := (C134_find σ a _ hσ k).2.1 _ hl
    have h2 : find_ σ a k = { owner := some a, objIt := some (findPos k (emplaceKey k v ms)) } := by
      simp [find_, end_, hσ]
    rw [h2] at h1
    exact ⟨h2.symm, h1.1, h1.2.1⟩
  refine ⟨emplaceKey k v ms, { owner := some a, objIt := some (findPos k (emplaceKey k v ms)) }, ?_, ?_,
    sorted_emplaceKey hs, fun k' => lookup_emplaceKey k k' v ms, ?_, key⟩
  · rcases hw with rfl | ⟨rfl, rfl⟩ <;> rfl
  · rcases hw with rfl | ⟨rfl, rfl⟩
    · rfl
    · have : keyLt k k = false := by
        cases h : keyLt k k with
        | false => rfl
        | true => exact absurd rfl (keys_differ.mp (.inl h))
      simp [emplace, emplaceKey, lookup, setKey, findPos, this]
  · intro h
    rw [emplaceKey]
    cases hk : lookup k ms with
    | some w => rfl
    | none => rw [hk] at h; cases h

/-- **C136** Members can be added to objects and null only. -/
theorem C136_emplace_refused (a : Nat) (k : Bytes) (v w : Json F) (ho : ∀ ms, w ≠ .obj ms) (hn : w ≠ .null) :
    pushMember k v w = .throws "type_error.308" ∧ emplace a k v w = .throws "type_error.311" := by
  cases w with
  | obj ms => exact absurd rfl (ho ms)
  | null => exact absurd rfl hn
  | _ => exact ⟨rfl, rfl⟩

example : emplace 3 [97] (.int 5) (.obj [([97], .int 1)] : Json Nat) =
    .ok (.obj [([97], .int 1)], { owner := some 3, objIt := some 0 }, false) := rfl
example : pushMember [97] (.int 5) (.arr [] : Json Nat) = .throws "type_error.308" :=
  (C136_emplace_refused 0 _ _ _ (fun _ h => by cases h) (fun h => by cases h)).1

/-! ## C137 -/

/-- is the value an array of a name and something -/
def pairOf : Json F → Option (Bytes × Json F)
  | .arr [.str k, x] => some (k, x)
  | _ => none

theorem isPair_iff (v : Json F) : isPair v = true ↔ ∃ e, pairOf v = some e := by
  rw [isPair.eq_def, pairOf.eq_def]
  split
  · simp
  · rename_i h
    split
    · rename_i h'; exact absurd rfl (h _ _)
    · simp

/-- **C137** (what holds) A list of values in braces becomes an array of these values if not all of them are
arrays of a string and one more value; if `array` is asked for, it does so in any case. -/
theorem C137_array_partial (vs : List (Json F)) :
    ((∃ v ∈ vs, pairOf v = none) → ofInit none vs = .ok (.arr vs)) ∧ ofInit (some false) vs = .ok (.arr vs) := by
  constructor
  · rintro ⟨v, hv, hp⟩
    have : vs.all isPair = false := by
      rw [List.all_eq_false]
      refine ⟨v, hv, fun h => ?_⟩
      obtain ⟨e, he⟩ := (isPair_iff v).mp h
      rw [hp] at he; cases he
    simp [ofInit, this]
  · simp [ofInit]

example : ofInit none [.int 1, .arr [.str [97], .int 2]] = .ok (.arr [.int 1, .arr [.str [97], .int 2]] : Json Nat) := rfl

/-- **C137** (what does not hold) A list of values in braces is not always an array of these: a list of arrays
that each begin with a string and have one more value becomes an object, and the empty list too. -/
theorem C137_array_fails : ofInit none ([.arr [.str [97], .int 1], .arr [.str [98], .int 2]] : List (Json Nat)) =
      .ok (.obj [([97], .int 1), ([98], .int 2)]) ∧ ofInit none ([] : List (Json Nat)) = .ok (.obj []) := ⟨rfl, rfl⟩

theorem foldl_pairs : ∀ (vs : List (Json F)) (ms : List (Bytes × Json F)), (∀ v ∈ vs, pairOf v ≠ none) →
    vs.foldl (fun ms v => match v with | .arr [.str k, x] => emplaceKey k x ms | _ => ms) ms =
      (vs.filterMap pairOf).foldl (fun ms e => emplaceKey e.1 e.2 ms) ms
  | [], _, _ => rfl
  | v :: vs, ms, h => by
    have hv := h v List.mem_cons_self
    have ht := fun w hw => h w (List.mem_cons_of_mem _ hw)
    rw [List.foldl_cons, foldl_pairs vs _ ht]
    rw [pairOf.eq_def] at hv
    split at hv
    · simp [pairOf]
    · exact absurd rfl hv

/-- **C137** (what holds) A list of arrays of a string and one more value becomes an object, unless an array is
asked for: the member of each name has the value that comes first with it, and there are no others.  Any other
list is refused if an object is asked for (301). -/
theorem C137_object_partial (vs : List (Json F)) (want : Option Bool) (hw : want ≠ some false) :
    ((∀ v ∈ vs, pairOf v ≠ none) → ∃ ms, ofInit want vs = .ok (.obj ms) ∧ SortedM ms ∧
      ∀ k, lookup k ms = ((vs.filterMap pairOf).find? fun e => e.1 == k).map (·.2)) ∧
    ((∃ v ∈ vs, pairOf v = none) → ofInit (some true) vs = .throws "type_error.301") := by
  constructor
  · intro h
    have hall : vs.all isPair = true := by
      rw [List.all_eq_true]
      intro v hv
      rw [isPair_iff]
      cases hp : pairOf v with
      | none => exact absurd hp (h v hv)
      | some e => exact ⟨e, rfl⟩
    obtain ⟨h1, h2⟩ := emplaceAll (vs.filterMap pairOf) [] List.Pairwise.nil
    refine ⟨_, ?_, h1, fun k => ?_⟩
    · rw [ofInit]
      have hb : (want != some false) = true := by simpa using hw
      simp only [hall, hb, Bool.and_self]
      rw [if_neg (by simp), if_pos trivial]
      exact congrArg (fun m => Outcome.ok (Json.obj m)) (foldl_pairs vs [] h)
    · rw [h2 k]
      have : ∀ es : List (Bytes × Json F), lookup k es = (es.find? fun e => e.1 == k).map (·.2) := by
        intro es
        induction es with
        | nil => rfl
        | cons e es ih =>
          rw [lookup_cons, List.find?_cons]
          by_cases hk : k = e.1
          · simp [hk]
          · rw [if_neg hk, ih]
            simp [show (e.1 == k) = false by simpa using Ne.symm hk]
      rw [lookup_nil, this]
      rfl
  · rintro ⟨v, hv, hp⟩
    have : vs.all isPair = false := by
      rw [List.all_eq_false]
      refine ⟨v, hv, fun h => ?_⟩
      obtain ⟨e, he⟩ := (isPair_iff v).mp h
      rw [hp] at he; cases he
    simp [ofInit, this]

example : ofInit none ([.arr [.str [98], .int 1], .arr [.str [97], .int 2], .arr [.str [98], .int 3]] : List (Json Nat)) =
    .ok (.obj [([97], .int 2), ([98], .int 1)]) := rfl

/-- **C137** (what does not hold) Of two members of one name the second is lost and nothing is said. -/
theorem C137_object_fails : ofInit none ([.arr [.str [97], .int 1], .arr [.str [97], .int 2]] : List (Json Nat)) =
    .ok (.obj [([97], .int 1)]) := rfl

/-- **C137** `push_back` of a list of a string and one value adds a member to an object, if there is none of
that name; to an array, or to null, it adds an array of the two. -/
theorem C137_push_back (k : Bytes) (v : Json F) (ms : List (Bytes × Json F)) (xs : List (Json F)) :
    pushInit [.str k, v] (.obj ms) = .ok (.obj (match lookup k ms with
      | some _ => ms
      | none => setKey k v ms)) ∧
    pushInit [.str k, v] (.arr xs) = .ok (.arr (xs ++ [.arr [.str k, v]])) ∧
    pushInit [.str k, v] (.null : Json F) = .ok (.arr [.arr [.str k, v]]) := ⟨rfl, rfl, rfl⟩

/-- **C137** `push_back` of any list adds to an array, or to null, the one value the list stands for (an object
if all are arrays of a string and one more value); an object takes no other list than one of a string and
one value (308). -/
theorem C137_push_back_list (vs xs : List (Json F)) (ms : List (Bytes × Json F)) :
    (∃ x, ofInit none vs = .ok x ∧ pushInit vs (.arr xs) = .ok (.arr (xs ++ [x])) ∧ pushInit vs .null = .ok (.arr [x]) ∧
      ((∃ v ∈ vs, pairOf v = none) → x = .arr vs) ∧ ((∀ v ∈ vs, pairOf v ≠ none) → ∃ ns, x = .obj ns)) ∧
    ((∀ k v, vs ≠ [.str k, v]) → pushInit vs (.obj ms) = .throws "type_error.308") := by
  have hx : ∃ x, ofInit none vs = .ok x := by
    rw [ofInit]
    simp only [reduceCtorEq, false_and, if_false]
    split <;> exact ⟨_, rfl⟩
  obtain ⟨x, hx⟩ := hx
  refine ⟨⟨x, hx, ?_, ?_, fun h => ?_, fun h => ?_⟩, fun h => ?_⟩
  · rw [pushInit.eq_def]; simp [hx]
  · rw [pushInit.eq_def]; simp [hx]
  · have := (C137_array_partial vs).1 h
    rw [hx] at this
    cases this; rfl
  · obtain ⟨ns, h1, _⟩ := (C137_object_partial vs none (by simp)).1 h
    rw [hx] at h1
    cases h1
    exact ⟨ns, rfl⟩
  · rw [pushInit.eq_def]
    split
    · rename_i k v heq1 heq2; exact absurd rfl (h _ _)
    · simp [hx]

example : pushInit [.int 1, .int 2] (.obj [] : Json Nat) = .throws "type_error.308" ∧
    pushInit [.int 1, .int 2] (.arr [.null] : Json Nat) = .ok (.arr [.null, .arr [.int 1, .int 2]]) := ⟨rfl, rfl⟩

example : pushInit [.str [97], .int 2] (.obj [([97], .int 1)] : Json Nat) = .ok (.obj [([97], .int 1)]) := rfl

/-- **C137** A value made from two places of an array or object has the elements between; from all of a number,
string or boolean it is that value.  Places of two values are refused (201), and so is null (206) and part
of a number (204). -/
theorem C137_range (σ : Store F) (a i j : Nat) {x y : Iter} (hij : i ≤ j) (hj : j ≤ (elems (σ a)).length)
    (hx : stepped σ i (begin_ σ a) = .ok x) (hy : stepped σ j (begin_ σ a) = .ok y) :
    (∀ xs, σ a = .arr xs → ofRange σ x y = .ok (.arr ((xs.take j).drop i))) ∧
    (∀ ms, σ a = .obj ms → ofRange σ x y = .ok (.obj ((ms.take j).drop i))) ∧
    (σ a = .null → ofRange σ x y = .throws "invalid_iterator.206") ∧
    ((∀ xs, σ a ≠ .arr xs) → (∀ ms, σ a ≠ .obj ms) → σ a ≠ .null →
      (i < j → ofRange σ x y = .ok (σ a)) ∧ (i = j → ofRange σ x y = .throws "invalid_iterator.204")) ∧
    ∀ z, z.owner ≠ some a → z.owner ≠ none → ofRange σ x z = .throws "invalid_iterator.201" := by
  rw [begin_eq, stepped_pos i 0 (by omega)] at hx
  rw [begin_eq, stepped_pos j 0 (by omega)] at hy
  cases hx
  cases hy
  simp only [Nat.zero_add]
  refine ⟨fun xs h => ?_, fun ms h => ?_, fun h => ?_, fun ha ho hn => ?_, fun z h1 h2 => ?_⟩
  · rw [h] at hj
    simp only [elems] at hj
    simp [ofRange, h, posIt, slice, hij, hj, List.drop_take]
  · rw [h] at hj
    simp only [elems, List.length_map] at hj
    simp [ofRange, h, posIt, between, hij, hj, List.drop_take]
  · simp [ofRange, h, posIt]
  · simp only [ofRange, posIt_owner]
    revert hj
    cases hv : σ a with
    | arr xs => exact absurd hv (ha xs)
    | obj ms => exact absurd hv (ho ms)
    | null => exact absurd hv hn
    | _ =>
      intro hj
      simp only [elems, List.length_singleton] at hj
      constructor
      · intro hlt; simp [posIt, show i = 0 by omega, show j = 1 by omega]
      · rintro rfl
        have h3 : ((i : Int) ≠ 0 ∨ (i : Int) ≠ 1) := by omega
        simp only [ne_eq, not_true_eq_false, if_false]
        exact if_pos h3
  · cases hz : z.owner with
    | none => exact absurd hz h2
    | some b =>
      rw [hz] at h1
      simp only [ofRange, posIt_owner, hz]
      rw [if_pos (by intro h; exact h1 (by rw [h]))]

example : ofRange (fun _ => (.arr [.int 1, .int 2, .int 3] : Json Nat)) { owner := some 0, arrIt := some 1 }
    { owner := some 0, arrIt := some 3 } = .ok (.arr [.int 2, .int 3]) := rfl

end Verif.Json
