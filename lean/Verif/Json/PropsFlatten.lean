import Verif.Json.UnflattenLemmas
import Verif.Json.PropsPointer

/-!
# Flattening and unflattening JSON values (C124)
-/

namespace Verif.Json
open Spec

variable {F : Type}

/-- **C124** (what holds) `flatten` gives an object; its names are the texts of the pointers that lead to what
is no object and no array, or an empty one, and under a name is what the pointer leads to, null for an empty
object or array; nothing is left out. -/
theorem C124_members (v : Json F) (ho : Ordered v) : ∃ ms, flatten v = .obj ms ∧ ms.Pairwise (fun a b => a.1 < b.1) ∧
    ∀ k y, (k, y) ∈ ms ↔ ∃ P x, Pointer k P ∧ Leads StrictIndex P v x ∧
      ((∀ ns, x ≠ .obj ns) ∧ (∀ xs, x ≠ .arr xs) ∧ y = x ∨ (x = .arr [] ∨ x = .obj []) ∧ y = .null) := by
  have hprim : ∀ w : Json F, isPrimitive w = true ↔ (∀ ns, w ≠ .obj ns) ∧ ∀ xs, w ≠ .arr xs := by
    intro w; cases w <;> simp [isPrimitive]
  obtain ⟨h1, h2⟩ := flatM_all ho
  refine ⟨flatM v, rfl, h1, fun k y => ?_⟩
  rw [h2]
  constructor
  · rintro ⟨P, ⟨x, hl, hx⟩, rfl⟩
    refine ⟨P, x, pointer_text P, hl, hx.imp_left ?_⟩
    rintro ⟨h, h'⟩
    obtain ⟨a, b⟩ := (hprim x).mp h
    exact ⟨a, b, h'⟩
  · rintro ⟨P, x, hP, hl, hx⟩
    refine ⟨P, ⟨x, hl, hx.imp_left ?_⟩, hP.eq_text⟩
    rintro ⟨a, b, h'⟩
    exact ⟨(hprim x).mpr ⟨a, b⟩, h'⟩

/-- for the examples: `{"": [true, {"/": []}], "0": 1}` -/
def exDeep : Json Unit :=
  .obj [([], .arr [.bool true, .obj [([0x2f], .arr [])]]), ([0x30], .uint 1)]

theorem exDeep_ordered : Ordered exDeep := by
  simp [exDeep, Ordered, OrderedL, OrderedM, SortedM]

theorem exDeep_short : Short exDeep := by simp [exDeep, Short, ShortL, ShortM]

/-- `{"//0": true, "//1/~1": null, "/0": 1}` -/
theorem exDeep_flat : flatten exDeep = .obj [([0x2f, 0x2f, 0x30], .bool true), ([0x2f, 0x2f, 0x31, 0x2f, 0x7e, 0x31], .null),
    ([0x2f, 0x30], .uint 1)] := by
  simp [flatten, exDeep, flattenRec, flattenObj, flattenArr, escape_eq, esc, toStr, setKey, keyLt]

example : ∃ P x, Pointer [0x2f, 0x2f, 0x31, 0x2f, 0x7e, 0x31] P ∧ Leads StrictIndex P exDeep x ∧
    ((∀ ns, x ≠ .obj ns) ∧ (∀ xs, x ≠ .arr xs) ∧ .null = x ∨ (x = .arr [] ∨ x = .obj []) ∧ Json.null = (.null : Json Unit)) := by
  obtain ⟨ms, h1, _, h3⟩ := C124_members exDeep exDeep_ordered
  rw [exDeep_flat] at h1
  injection h1 with h1
  exact (h3 _ _).mp (by rw [← h1]; simp)

/-- **C124** (what holds) The value comes back from `flatten` and `unflatten` exactly if no object and no array in
it is empty and every object with a member `0` has one whose name comes before it. -/
theorem C124_round_trip_iff (v : Json F) (ho : Ordered v) (hs : Short v) :
    unflatten (flatten v) = .ok v ↔ Full v ∧ Named v := by
  obtain ⟨h1, h2, h3⟩ := blank_all v ho hs
  have e : flatten (blank v) = flatten v := by rw [flatten, flattenRec_blank]; rfl
  obtain ⟨g1, g2⟩ := unflatten_flatten h1 h3 h2
  rw [e, named_blank] at g1 g2
  constructor
  · intro h
    have hn : Named v := by
      by_contra hn
      exact (g2 hn v h).blank_ne rfl ho rfl
    refine ⟨?_, hn⟩
    rw [g1 hn] at h
    injection h with h
    rwa [h] at h3
  · rintro ⟨hf, hn⟩
    rw [g1 hn, blank_full v hf]

/-- `{"!": [1, {"0": {"x": 2}, "0!": "y"}], "0": null}` -/
example : unflatten (flatten (.obj [([0x21], .arr [.uint 1, .obj [([0x30], .obj [([0x78], .uint 2)]), ([0x30, 0x21], .str [0x79])]]),
    ([0x30], .null)] : Json Unit)) = .ok (.obj [([0x21], .arr [.uint 1, .obj [([0x30], .obj [([0x78], .uint 2)]), ([0x30, 0x21], .str [0x79])]]),
    ([0x30], .null)]) := by
  refine (C124_round_trip_iff _ ?_ ?_).mpr ⟨?_, ?_⟩
  · simp [Ordered, OrderedL, OrderedM, SortedM, List.cons_lt_cons_iff]
  · simp [Short, ShortL, ShortM]
  · simp [Full, FullL, FullM]
  · simp only [Named, NamedL, NamedM]
    refine ⟨fun x _ => ⟨[0x21], _, List.mem_cons_self, .inr (.inl ⟨_, _, rfl, by omega, by omega⟩)⟩, ?_⟩
    refine ⟨⟨trivial, ⟨fun x hx => ⟨[0x30, 0x21], _, List.mem_cons_of_mem _ List.mem_cons_self, ?_⟩, ?_⟩, trivial⟩, trivial, trivial⟩
    · simp at hx
      exact .inr (.inr ⟨.inr ⟨_, _, hx⟩, _, _, rfl, by omega⟩)
    · refine ⟨⟨fun x hx => ?_, trivial, trivial⟩, trivial, trivial⟩
      simp at hx

/-- **C124** (what holds) The value comes back with nothing changed but that empty objects and arrays are null,
exactly if every object with a member `0` has one whose name comes before it. -/
theorem C124_blank_iff (v : Json F) (ho : Ordered v) (hs : Short v) :
    unflatten (flatten v) = .ok (blank v) ↔ Named v := by
  obtain ⟨h1, h2, h3⟩ := blank_all v ho hs
  have e : flatten (blank v) = flatten v := by rw [flatten, flattenRec_blank]; rfl
  obtain ⟨g1, g2⟩ := unflatten_flatten h1 h3 h2
  rw [e, named_blank] at g1 g2
  refine ⟨fun h => ?_, g1⟩
  by_contra hn
  exact (g2 hn _ h).ne h1 rfl

example : unflatten (flatten exDeep) =
    .ok (.obj [([], .arr [.bool true, .obj [([0x2f], .null)]]), ([0x30], .uint 1)]) := by
  have h : Named exDeep := by
    simp only [exDeep, Named, NamedL, NamedM]
    refine ⟨fun x _ => ⟨[], _, List.mem_cons_self, .inl rfl⟩, ⟨trivial, ⟨fun x hx => ?_, trivial, trivial⟩, trivial⟩, trivial, trivial⟩
    simp at hx
  have := (C124_blank_iff exDeep exDeep_ordered exDeep_short).mpr h
  rw [this]
  rfl

theorem unflattenLoop_cons {w x : Json F} (hx : isPrimitive x = true) (P : List Bytes) (ms : List (Bytes × Json F)) :
    unflattenLoop w ((ptrToString P, x) :: ms) = createPtrUpd (fun _ => .ok x) P w >>= fun w' => unflattenLoop w' ms := by
  rw [unflattenLoop, if_pos hx, split_ptrToString, Outcome.bind_ok]

/-- **C124** (what does not hold) that everything but empty objects and arrays comes back from `flatten` and
`unflatten`: of an object with a member `0` an array is made, and if there are other members an exception may
be thrown. -/
theorem C124_zero_fails (x y : Json F) (hx : ∀ ns, x ≠ .obj ns) (hx' : ∀ xs, x ≠ .arr xs) (hy : ∀ ns, y ≠ .obj ns)
    (hy' : ∀ xs, y ≠ .arr xs) :
    unflatten (flatten (.obj [([0x30], x)])) = .ok (.arr [x]) ∧
    unflatten (flatten (.obj [([0x30], x), ([0x61], y)])) = .throws "parse_error.109" := by
  have hprim : ∀ w : Json F, (∀ ns, w ≠ .obj ns) → (∀ xs, w ≠ .arr xs) → isPrimitive w = true ∧ ∀ p, flattenRec p w = [(p, w)] := by
    intro w h h'
    cases w <;> first | exact absurd rfl (h _) | exact absurd rfl (h' _) | exact ⟨rfl, fun p => by simp [flattenRec]⟩
  obtain ⟨px, fx⟩ := hprim x hx hx'
  obtain ⟨py, fy⟩ := hprim y hy hy'
  have e1 : flatten (.obj [([0x30], x)]) = .obj [(ptrToString [[0x30]], x)] := by
    simp [flatten, flattenRec, flattenObj, fx, setKey, escape_eq, ptrToString_cons, ptrToString_nil]
  have e2 : flatten (.obj [([0x30], x), ([0x61], y)]) = .obj [(ptrToString [[0x30]], x), (ptrToString [[0x61]], y)] := by
    simp [flatten, flattenRec, flattenObj, fx, fy, setKey, keyLt, escape_eq, esc, ptrToString_cons, ptrToString_nil]
  have e3 : createPtrUpd (fun _ => .ok x) [[0x30]] .null = .ok (.arr [x]) := by rw [create_zero]; rfl
  constructor
  · rw [e1, unflatten, unflattenLoop, if_pos px, split_ptrToString, Outcome.bind_ok, e3]; rfl
  · rw [e2, unflatten, unflattenLoop, if_pos px, split_ptrToString, Outcome.bind_ok, e3, Outcome.bind_ok, unflattenLoop, if_pos py,
      split_ptrToString, Outcome.bind_ok, createPtrUpd]
    rfl

example : unflatten (flatten (.obj [([0x30], .uint 7), ([0x61], .null)] : Json Unit)) = .throws "parse_error.109" :=
  (C124_zero_fails (.uint 7) .null (by simp) (by simp) (by simp) (by simp)).2

/-- **C124** (what holds) `unflatten` ends with a value only for an object all of whose names are pointers and
whose values are no objects and no arrays; for what is no object it throws `type_error.314`, and for the first
member that is an object or array, if it comes as far, `type_error.315`. -/
theorem C124_refused (v : Json F) :
    (∀ r, unflatten v = .ok r → ∃ ms, v = .obj ms ∧ ∀ k y, (k, y) ∈ ms → isPrimitive y = true ∧ ∃ P, Pointer k P) ∧
    ((∀ ms, v ≠ .obj ms) → unflatten v = .throws "type_error.314") ∧
    ∀ ms k y ns r, v = .obj (ms ++ (k, y) :: ns) → unflatten (.obj ms) = .ok r → isPrimitive y = false →
      unflatten v = .throws "type_error.315" := by
  have h1 : ∀ (ms : List (Bytes × Json F)) (w r : Json F), unflattenLoop w ms = .ok r →
      ∀ k y, (k, y) ∈ ms → isPrimitive y = true ∧ ∃ P, Pointer k P := by
    intro ms
    induction ms with
    | nil => simp
    | cons m ms ih =>
      obtain ⟨k, y⟩ := m
      intro w r h l z hz
      rw [unflattenLoop] at h
      split at h
      · rename_i hp
        cases h2 : split k with
        | ok P =>
          rw [h2, Outcome.bind_ok] at h
          cases h3 : createPtrUpd (fun _ => .ok y) P w with
          | ok w' =>
            rw [h3, Outcome.bind_ok] at h
            rcases List.mem_cons.mp hz with hz | hz
            · cases hz
              exact ⟨hp, P, (C118_read_iff _ _).mp h2⟩
            · exact ih _ _ h l z hz
          | _ => rw [h3] at h; cases h
        | _ => rw [h2] at h; cases h
      · cases h
  have h2 : ∀ (ms : List (Bytes × Json F)) (w r : Json F) (k : Bytes) (y : Json F) ns, unflattenLoop w ms = .ok r →
      isPrimitive y = false → unflattenLoop w (ms ++ (k, y) :: ns) = .throws "type_error.315" := by
    intro ms
    induction ms with
    | nil => intro w r k y ns _ hp; rw [List.nil_append, unflattenLoop, if_neg (by simp [hp])]
    | cons m ms ih =>
      obtain ⟨l, z⟩ := m
      intro w r k y ns h hp
      rw [unflattenLoop] at h
      rw [List.cons_append, unflattenLoop]
      split at h
      · rename_i hp'
        rw [if_pos hp']
        cases h2 : split l with
        | ok P =>
          rw [h2, Outcome.bind_ok] at h
          cases h3 : createPtrUpd (fun _ => .ok z) P w with
          | ok w' =>
            rw [h3, Outcome.bind_ok] at h
            rw [Outcome.bind_ok, h3, Outcome.bind_ok]
            exact ih _ _ _ _ _ h hp
          | _ => rw [h3] at h; cases h
        | _ => rw [h2] at h; cases h
      · cases h
  refine ⟨fun r h => ?_, fun h => ?_, fun ms k y ns r e h hp => ?_⟩
  · cases v with
    | obj ms => exact ⟨ms, rfl, h1 ms _ r h⟩
    | _ => cases h
  · cases v with
    | obj ms => exact absurd rfl (h ms)
    | _ => rfl
  · rw [e]
    exact h2 ms _ r k y ns h hp

example : unflatten (.obj [(ptrToString [[0x61]], .uint 1), (ptrToString [[0x62]], .arr [])] : Json Unit) = .throws "type_error.315" :=
  (C124_refused _).2.2 [(ptrToString [[0x61]], .uint 1)] (ptrToString [[0x62]]) (.arr []) [] (.obj [([0x61], .uint 1)]) rfl
    (by rw [unflatten, unflattenLoop_cons rfl, create_null (by simp)]; rfl) rfl

/-! ## No undefined behaviour -/

mutual
/-- no array is empty -/
def Filled : Json F → Prop
  | .arr xs => xs ≠ [] ∧ FilledL xs
  | .obj ms => FilledM ms
  | .null | .bool _ | .int _ | .uint _ | .float _ | .str _ => True
def FilledL : List (Json F) → Prop
  | [] => True
  | v :: vs => Filled v ∧ FilledL vs
def FilledM : List (Bytes × Json F) → Prop
  | [] => True
  | (_, v) :: ms => Filled v ∧ FilledM ms
end

theorem filledL_iff {xs : List (Json F)} : FilledL xs ↔ ∀ x ∈ xs, Filled x := by
  induction xs with
  | nil => simp [FilledL]
  | cons x xs ih => rw [FilledL, ih]; simp

theorem filledM_iff {ms : List (Bytes × Json F)} : FilledM ms ↔ ∀ x ∈ ms, Filled x.2 := by
  induction ms with
  | nil => simp [FilledM]
  | cons x xs ih => obtain ⟨k, v⟩ := x; rw [FilledM, ih]; simp

/-- ends with a value for which `p` holds, or with an exception -/
def Tame (p : Json F → Prop) : Outcome (Json F) → Prop
  | .ok v => p v
  | .throws _ | .outOfRange => True
  | .assertFail | .ub | .diverges => False

theorem setKey_part {k : Bytes} {v : Json F} {x : Bytes × Json F} : ∀ {ms : List (Bytes × Json F)},
    x ∈ setKey k v ms → x = (k, v) ∨ x ∈ ms
  | [], h => by rw [setKey] at h; exact .inl (List.mem_singleton.mp h)
  | (l, w) :: ms, h => by
    rw [setKey_cons] at h
    split at h
    · exact List.mem_cons.mp h
    split at h
    · rcases List.mem_cons.mp h with h | h
      · exact .inl h
      · exact .inr (List.mem_cons_of_mem _ h)
    · rcases List.mem_cons.mp h with h | h
      · exact .inr (h ▸ List.mem_cons_self)
      · exact (setKey_part h).imp id (List.mem_cons_of_mem _)

theorem tame_bind {p q : Json F → Prop} {o : Outcome (Json F)} {g : Json F → Outcome (Json F)} (h : Tame p o)
    (hg : ∀ v, p v → Tame q (g v)) : Tame q (o >>= g) := by
  cases o with
  | ok v => exact hg v h
  | throws => exact True.intro
  | outOfRange => exact True.intro
  | assertFail => exact h.elim
  | ub => exact h.elim
  | diverges => exact h.elim

theorem create_tame {x : Json F} (hx : Filled x) : ∀ (P : List Bytes) {w : Json F}, Filled w →
    Tame Filled (createPtrUpd (fun _ => .ok x) P w)
  | [], w, _ => hx
  | t :: ts, w, hw => by
    cases w with
    | null =>
      rw [createPtrUpd]
      split
      · exact tame_bind (create_tame hx ts hw) fun v hv => by simp [Tame, Filled, FilledL, hv]
      · exact tame_bind (create_tame hx ts hw) fun v hv => by simp [Tame, Filled, FilledM, hv]
    | obj ms =>
      rw [Filled, filledM_iff] at hw
      rw [createPtrUpd]
      refine tame_bind (create_tame hx ts ?_) fun v hv => ?_
      · cases hl : lookup t ms with
        | none => simp [Filled]
        | some a => exact hw _ (lookup_mem hl)
      · show Filled _
        rw [Filled, filledM_iff]
        intro z hz
        rcases setKey_part hz with rfl | hz
        · exact hv
        · exact hw z hz
    | arr xs =>
      rw [Filled, filledL_iff] at hw
      have hlen : 0 < xs.length := List.length_pos_iff.mpr hw.1
      rw [createPtrUpd, tokenIndex]
      cases hi : arrayIndex t with
      | num n =>
        simp only [Outcome.bind_ok]
        have hn : sizeT n < 2 ^ 64 := by rw [sizeT]; omega
        generalize sizeT n = i at hn ⊢
        rw [fillTo]
        have fin : ∀ ys : List (Json F), i < ys.length → (∀ y ∈ ys, Filled y) → Tame Filled (match ys[i]? with
            | some w => createPtrUpd (fun _ => .ok x) ts w >>= fun w' => .ok (.arr (ys.set i w'))
            | none => .ub) := by
          intro ys hy hf
          rw [List.getElem?_eq_getElem hy]
          refine tame_bind (create_tame hx ts (hf _ (List.getElem_mem hy))) fun v hv => ?_
          show Filled _
          rw [Filled, filledL_iff]
          refine ⟨?_, fun z hz => ?_⟩
          · intro e
            have := congrArg List.length e
            simp at this
            subst this
            simp at hy
          · rcases List.mem_or_eq_of_mem_set hz with hz | rfl
            · exact hf z hz
            · exact hv
        split
        · rename_i hle
          dsimp only
          split
          · exact True.intro
          · rw [Outcome.bind_ok]
            refine fin _ ?_ ?_
            · rw [List.length_append, List.length_replicate, Nat.mod_eq_of_lt (by omega)]; omega
            · intro y hy
              rcases List.mem_append.mp hy with hy | hy
              · exact hw.2 y hy
              · rw [(List.mem_replicate.mp hy).2, Filled]; trivial
        · rw [Outcome.bind_ok]
          exact fin xs (by omega) hw.2
      | invalid => exact True.intro
      | range => exact True.intro
      | partly => exact True.intro
    | bool b => rw [createPtrUpd]; exact True.intro
    | int b => rw [createPtrUpd]; exact True.intro
    | uint b => rw [createPtrUpd]; exact True.intro
    | float b => rw [createPtrUpd]; exact True.intro
    | str b => rw [createPtrUpd]; exact True.intro

theorem split_total (k : Bytes) : (∃ P, split k = .ok P) ∨ ∃ e, split k = .throws e := by
  by_cases h : ∃ ts, Pointer k ts
  · obtain ⟨ts, h⟩ := h
    exact .inl ⟨ts, (C118_read_iff k ts).mpr h⟩
  · have := C118_refused k h
    split at this
    all_goals exact .inr ⟨_, this⟩

/-- **C124** (what holds) `unflatten` of any value ends with a value or an exception. -/
theorem C124_defined (v : Json F) : (∃ r, unflatten v = .ok r) ∨ (∃ e, unflatten v = .throws e) ∨ unflatten v = .outOfRange := by
  have loop : ∀ (ms : List (Bytes × Json F)) (w : Json F), Filled w → Tame Filled (unflattenLoop w ms) := by
    intro ms
    induction ms with
    | nil => intro w hw; exact hw
    | cons m ms ih =>
      obtain ⟨k, y⟩ := m
      intro w hw
      rw [unflattenLoop]
      split
      · rename_i hp
        have hy : Filled y := by cases y <;> (rw [Filled]; trivial)
        rcases split_total k with ⟨P, h⟩ | ⟨e, h⟩
        · rw [h, Outcome.bind_ok]
          exact tame_bind (create_tame hy P hw) fun v hv => ih v hv
        · rw [h]; exact True.intro
      · exact True.intro
  have : Tame (fun _ : Json F => True) (unflatten v) := by
    cases v with
    | obj ms =>
      have := loop ms .null (by rw [Filled]; trivial)
      rw [unflatten]
      revert this
      cases unflattenLoop (.null : Json F) ms <;> intro h <;> first | exact True.intro | exact h
    | _ => exact True.intro
  revert this
  cases unflatten v with
  | ok r => exact fun _ => .inl ⟨r, rfl⟩
  | throws e => exact fun _ => .inr (.inl ⟨e, rfl⟩)
  | outOfRange => exact fun _ => .inr (.inr rfl)
  | assertFail => exact fun h => h.elim
  | ub => exact fun h => h.elim
  | diverges => exact fun h => h.elim

/-- `{"/0": 1, "/0/a": 1}` -/
example : unflatten (.obj [(ptrToString [[0x30]], .uint 1), (ptrToString [[0x30], [0x61]], .uint 1)] : Json Unit) =
    .throws "type_error.313" := by
  have h := C124_defined (.obj [(ptrToString [[0x30]], .uint 1), (ptrToString [[0x30], [0x61]], .uint 1)] : Json Unit)
  rw [unflatten, unflattenLoop_cons rfl, create_zero] at h ⊢
  simp only [createPtrUpd, Outcome.bind_ok, unflattenLoop_cons (F := Unit) (x := .uint 1) rfl] at h ⊢
  rcases h with ⟨r, h⟩ | _ | h
  · cases h
  · rfl
  · cases h

end Verif.Json
