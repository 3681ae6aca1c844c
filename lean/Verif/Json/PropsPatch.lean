import Verif.Json.ChangeLemmas
import Verif.Json.PropsDiff

/-!
# The operations of a JSON patch (C122)
-/

namespace Verif.Json
open Spec

variable {F L : Type} [LinearOrder L]

namespace Spec

/-- the operations of a patch one after the other, as RFC 6902 has them; on the way no array gets more than
2^31 elements -/
inductive Performed (fo : FloatOrder F L) : List (Json F) → Json F → Json F → Prop
  | nil (v : Json F) : Performed fo [] v v
  | cons {o v w v' : Json F} {os : List (Json F)} : Short w → Performs StrictIndex StrictIndex fo o v w →
      Performed fo os w v' → Performed fo (o :: os) v v'

end Spec

theorem ordered_opVal {op p : Bytes} {x : Json F} (h : Ordered x) : Ordered (opVal op p x) := by
  simp [opVal, Ordered, OrderedM, wOp, wPath, wValue, List.cons_lt_cons_iff, h]

theorem ordered_opRemove {p : Bytes} : Ordered (opRemove p : Json F) := by
  simp [opRemove, Ordered, OrderedM, wOp, wPath, List.cons_lt_cons_iff]

/-- an operation `move` or `copy` -/
def opFrom (op from_ path : Bytes) : Json F := .obj [(wFrom, .str from_), (wOp, .str op), (wPath, .str path)]

theorem ordered_opFrom {op p q : Bytes} : Ordered (opFrom op p q : Json F) := by
  simp [opFrom, Ordered, OrderedM, wOp, wPath, wFrom, List.cons_lt_cons_iff]

theorem pointer_one (t : Bytes) : Pointer (ptrToString [t]) [t] := pointer_text [t]

/-- **C122** (what holds) An operation that can be performed by RFC 6902 is performed: `patch` gives the value
the RFC asks for, as long as no array has more than 2^31 elements. -/
theorem C122_rfc_partial (fo : FloatOrder F L) (o v v' : Json F) (hoo : Ordered o) (ho : Ordered v)
    (hs : Short v) (hs' : Short v') (h : Performs StrictIndex StrictIndex fo o v v') :
    patch fo v (.arr [o]) = .ok v' := by
  rw [patch, patchLoop, step_run fo (performs_lax fo h hoo ho hs hs').1 hoo ho]; rfl

/-- `[1, 2]` with `3` added at `/1` -/
example : patch twoDigits (.arr [.int 1, .int 2]) (.arr [opVal wAdd (ptrToString [[0x31]]) (.int 3)]) =
    .ok (.arr [.int 1, .int 3, .int 2]) := by
  refine C122_rfc_partial twoDigits _ _ _ (ordered_opVal (by simp [Ordered])) (by simp [Ordered, OrderedL])
    (by simp [Short, ShortL]) (by simp [Short, ShortL]) ?_
  refine .add (by simp) (List.mem_cons_of_mem _ List.mem_cons_self) (pointer_one _)
    (List.mem_cons_of_mem _ (List.mem_cons_of_mem _ List.mem_cons_self)) ?_
  exact .part (ts := []) (.here (.inserted (xs := [.int 1]) (by rw [StrictIndex, List.length_singleton, digits_small (by omega)])))

/-- `{"a": 1, "b": 2}` with `/a` moved to `/c` -/
example : patch twoDigits (.obj [([0x61], .int 1), ([0x62], .int 2)])
    (.arr [opFrom wMove (ptrToString [[0x61]]) (ptrToString [[0x63]])]) =
    .ok (.obj [([0x62], .int 2), ([0x63], .int 1)]) := by
  refine C122_rfc_partial twoDigits _ _ _ ordered_opFrom
    (by simp [Ordered, OrderedM, List.cons_lt_cons_iff]) (by simp [Short, ShortM]) (by simp [Short, ShortM]) ?_
  refine .move (x := .int 1) (u := .obj [([0x62], .int 2)]) (List.mem_cons_of_mem _ List.mem_cons_self)
    (List.mem_cons_of_mem _ (List.mem_cons_of_mem _ List.mem_cons_self)) (pointer_one _) List.mem_cons_self (pointer_one _)
    (by simp) (.member (by simp) (.here _)) ?_ ?_
  · exact .part (ts := []) (.here (.member (ms := [])))
  · exact .part (ts := []) (.here (.new (ms := [([0x62], .int 2)]) (ns := [])
      (by simp [List.cons_lt_cons_iff]) (by simp)))

theorem performed_run (fo : FloatOrder F L) {os : List (Json F)} {v v' : Json F} (h : Performed fo os v v')
    (hoo : ∀ o ∈ os, Ordered o) (ho : Ordered v) (hs : Short v) : patchLoop fo v os = .ok v' := by
  induction h with
  | nil v => rfl
  | cons hsw hp _ ih =>
    obtain ⟨h1, h2⟩ := performs_lax fo hp (hoo _ (by simp)) ho hs hsw
    rw [patchLoop, step_run fo h1 (hoo _ (by simp)) ho, Outcome.bind_ok]
    exact ih (fun o h => hoo o (List.mem_cons_of_mem _ h)) h2 hsw

/-- **C122** (what holds) A patch all of whose operations can be performed, one after the other, by RFC
6902 gives the value the RFC asks for, as long as no array gets more than 2^31 elements. -/
theorem C122_patch_partial (fo : FloatOrder F L) (os : List (Json F)) (v v' : Json F) (hoo : ∀ o ∈ os, Ordered o)
    (ho : Ordered v) (hs : Short v) (h : Performed fo os v v') : patch fo v (.arr os) = .ok v' := by
  rw [patch, performed_run fo h hoo ho hs]

/-- `[1]`: `/0` tested to be 1, then removed -/
example : patch twoDigits (.arr [.int 1])
    (.arr [opVal wTest (ptrToString [[0x30]]) (.uint 1), opRemove (ptrToString [[0x30]])]) = .ok (.arr []) := by
  refine C122_patch_partial twoDigits _ _ _ ?_ (by simp [Ordered, OrderedL]) (by simp [Short, ShortL]) ?_
  · intro o ho
    simp only [List.mem_cons, List.not_mem_nil, or_false] at ho
    rcases ho with rfl | rfl
    · exact ordered_opVal (by simp [Ordered])
    · exact ordered_opRemove
  · refine .cons (w := .arr [.int 1]) (by simp [Short, ShortL]) ?_ (.cons (w := .arr []) (by simp [Short, ShortL]) ?_ (.nil _))
    · refine .test (x := .uint 1) (y := .int 1) List.mem_cons_self (List.mem_cons_of_mem _ List.mem_cons_self) (pointer_one _)
        (List.mem_cons_of_mem _ (List.mem_cons_of_mem _ List.mem_cons_self)) (.element (i := 0) ?_ rfl (.here _)) (by decide)
      rw [StrictIndex, digits_small (by omega)]
    · refine .remove List.mem_cons_self (List.mem_cons_of_mem _ List.mem_cons_self) (pointer_one _)
        (.part (ts := []) (.here (.element (xs := []) (ys := []) ?_)))
      rw [StrictIndex, List.length_nil, digits_small (by omega)]

/-! ## What else is done -/

/-- the outcome of an operation `replace` -/
theorem step_replace_eq (fo : FloatOrder F L) {ms : List (Bytes × Json F)} {p : Bytes} {ts : List Bytes} {x : Json F}
    (hs : SortedM ms) (h1 : (wOp, .str wReplace) ∈ ms) (h2 : (wPath, .str p) ∈ ms) (h3 : Pointer p ts) (h4 : (wValue, x) ∈ ms)
    (v : Json F) : patchStep fo v (.obj ms) = atPtrUpd (fun _ => .ok x) ts v := by
  rw [patchStep, getString_of hs h1, Outcome.bind_ok, getString_of hs h2, Outcome.bind_ok, pointer_split h3,
      Outcome.bind_ok, if_neg (by decide), if_neg (by decide), if_pos rfl, getValue_of hs h4]

theorem step_remove_eq (fo : FloatOrder F L) {ms : List (Bytes × Json F)} {p : Bytes} {ts : List Bytes}
    (hs : SortedM ms) (h1 : (wOp, .str wRemove) ∈ ms) (h2 : (wPath, .str p) ∈ ms) (h3 : Pointer p ts)
    (v : Json F) : patchStep fo v (.obj ms) = operationRemove ts v := by
  rw [patchStep, getString_of hs h1, Outcome.bind_ok, getString_of hs h2, Outcome.bind_ok, pointer_split h3,
      Outcome.bind_ok, if_neg (by decide), if_pos rfl]

theorem step_add_eq (fo : FloatOrder F L) {ms : List (Bytes × Json F)} {p : Bytes} {ts : List Bytes} {x : Json F}
    (hs : SortedM ms) (h1 : (wOp, .str wAdd) ∈ ms) (h2 : (wPath, .str p) ∈ ms) (h3 : Pointer p ts) (h4 : (wValue, x) ∈ ms)
    (v : Json F) : patchStep fo v (.obj ms) = operationAdd ts x v := by
  rw [patchStep, getString_of hs h1, Outcome.bind_ok, getString_of hs h2, Outcome.bind_ok, pointer_split h3,
      Outcome.bind_ok, if_pos rfl, getValue_of hs h4, Outcome.bind_ok]

theorem step_test_eq (fo : FloatOrder F L) {ms : List (Bytes × Json F)} {p : Bytes} {ts : List Bytes}
    (hs : SortedM ms) (h1 : (wOp, .str wTest) ∈ ms) (h2 : (wPath, .str p) ∈ ms) (h3 : Pointer p ts)
    (v : Json F) : patchStep fo v (.obj ms) = operationTest fo ts ms v := by
  rw [patchStep, getString_of hs h1, Outcome.bind_ok, getString_of hs h2, Outcome.bind_ok, pointer_split h3,
      Outcome.bind_ok, if_neg (by decide), if_neg (by decide), if_neg (by decide), if_neg (by decide), if_neg (by decide),
      if_pos rfl]

theorem patch_one (fo : FloatOrder F L) (v o : Json F) : patch fo v (.arr [o]) = patchStep fo v o := by
  rw [patch, patchLoop]
  exact bind_pure _

/-- **C122** (what holds) An operation `replace` ends with a value exactly if its path leads to a place, and
the value is the document with the given value at that place and nothing else changed.  (What an array
index is, is wider than in the RFC: C119.) -/
theorem C122_replace_iff (fo : FloatOrder F L) (ms : List (Bytes × Json F)) (p : Bytes) (ts : List Bytes) (x v v' : Json F)
    (hoo : Ordered (.obj ms)) (ho : Ordered v) (hf : Fits v)
    (h1 : (wOp, .str wReplace) ∈ ms) (h2 : (wPath, .str p) ∈ ms) (h3 : Pointer p ts) (h4 : (wValue, x) ∈ ms) :
    patch fo v (.arr [.obj ms]) = .ok v' ↔ Change LaxIndex (fun _ b => b = x) ts v v' := by
  rw [Ordered] at hoo
  rw [patch_one, step_replace_eq fo hoo.1 h1 h2 h3 h4]
  constructor
  · intro h
    exact (upd_change ho hf h).mono (fun _ _ h => h) fun a b e => by injection e with e; exact e.symm
  · intro h
    exact (h.mono (fun _ _ h => h) fun a b e => by rw [e]).upd ho

example : patch twoDigits exS (.arr [opVal wReplace (ptrToString [[0x62]]) (.bool true)]) =
    .ok (.obj [([0x61], .arr [.uint 1, .float (some 2), .str [0x78]]), ([0x62], .bool true)]) := by
  refine (C122_replace_iff twoDigits _ _ _ (.bool true) _ _ (ordered_opVal (by simp [Ordered])) exS_ordered
    (by simp [exS, Fits, FitsL, FitsM]) List.mem_cons_self (List.mem_cons_of_mem _ List.mem_cons_self) (pointer_one _)
    (List.mem_cons_of_mem _ (List.mem_cons_of_mem _ List.mem_cons_self))).mpr ?_
  exact .member (ms := [([0x61], .arr [.uint 1, .float (some 2), .str [0x78]])]) (ns := []) (.here rfl)

/-- **C122** (what holds) An operation `test` ends with a value exactly if its path leads to a value equal to
the one given, and leaves the document as it is. -/
theorem C122_test_iff (fo : FloatOrder F L) (ms : List (Bytes × Json F)) (p : Bytes) (ts : List Bytes) (x v v' : Json F)
    (hoo : Ordered (.obj ms)) (ho : Ordered v) (hf : Fits v)
    (h1 : (wOp, .str wTest) ∈ ms) (h2 : (wPath, .str p) ∈ ms) (h3 : Pointer p ts) (h4 : (wValue, x) ∈ ms) :
    patch fo v (.arr [.obj ms]) = .ok v' ↔ v' = v ∧ ∃ y, Leads LaxIndex ts v y ∧ eqV fo y x = true := by
  rw [Ordered] at hoo
  rw [patch_one, step_test_eq fo hoo.1 h1 h2 h3, operationTest]
  constructor
  · intro h
    cases ha : atPtr ts v with
    | ok y =>
      rw [ha] at h
      simp only at h
      rw [getValue_of hoo.1 h4, Outcome.bind_ok] at h
      by_cases he : eqV fo y x = true
      · rw [if_pos he] at h
        injection h with h
        exact ⟨h.symm, y, at_leads hf ha, he⟩
      · rw [if_neg he] at h; cases h
    | throws k =>
      rw [ha] at h
      simp only at h
      split at h <;> cases h
    | _ => rw [ha] at h; cases h
  · rintro ⟨rfl, y, hl, he⟩
    rw [hl.at ho]
    simp only
    rw [getValue_of hoo.1 h4, Outcome.bind_ok, if_pos he]

example : patch twoDigits exS (.arr [opVal wTest (ptrToString [[0x62]]) .null]) = .ok exS :=
  (C122_test_iff twoDigits _ _ _ .null _ _ (ordered_opVal (by simp [Ordered])) exS_ordered
    (by simp [exS, Fits, FitsL, FitsM]) List.mem_cons_self (List.mem_cons_of_mem _ List.mem_cons_self) (pointer_one _)
    (List.mem_cons_of_mem _ (List.mem_cons_of_mem _ List.mem_cons_self))).mpr
    ⟨rfl, .null, .member (by simp) (.here _), rfl⟩

theorem remove_at {ts : List Bytes} {t : Bytes} (v : Json F) :
    operationRemove (ts ++ [t]) v = atPtrUpd (removeFrom t) ts v := by
  cases hP : ts ++ [t] with
  | nil => simp at hP
  | cons u us => rw [operationRemove, ← hP]; simp

theorem change_split {t : Bytes} : ∀ {ts : List Bytes} {v v' : Json F},
    Change LaxIndex (fun a b => removeFrom t a = .ok b) ts v v' → Ordered v → Fits v →
    Change LaxIndex (Removed LastIndex t) ts v v' ∨ v' = v ∧ ∃ w, Leads LaxIndex ts v w ∧ isPrimitive w = true := by
  intro ts v v' h
  induction h with
  | here h =>
    intro ho hf
    rcases from_removed ho hf h with h | ⟨h, rfl⟩
    · exact .inl (.here h)
    · exact .inr ⟨rfl, _, .here _, h⟩
  | member _ ih =>
    intro ho hf
    rw [Ordered, orderedM_iff] at ho
    rw [Fits, fitsM_iff] at hf
    rcases ih (ho.2 (_, _) (List.mem_append_right _ List.mem_cons_self)) (hf (_, _) (List.mem_append_right _ List.mem_cons_self))
      with h | ⟨rfl, w, hl, hp⟩
    · exact .inl (.member h)
    · exact .inr ⟨rfl, w, .member (by simp) hl, hp⟩
  | element hi _ ih =>
    intro ho hf
    rw [Ordered, orderedL_iff] at ho
    rw [Fits, fitsL_iff] at hf
    rcases ih (ho _ (by simp)) (hf.2 _ (by simp)) with h | ⟨rfl, w, hl, hp⟩
    · exact .inl (.element hi h)
    · exact .inr ⟨rfl, w, .element hi (by simp) hl, hp⟩

/-- **C122** (what holds) An operation `remove` ends with a value exactly if its path leads to a place, and
the value is the document without it and nothing else changed; or the path without its last token leads to
a value that is no object and no array, and then nothing is changed. -/
theorem C122_remove_iff (fo : FloatOrder F L) (ms : List (Bytes × Json F)) (p : Bytes) (ts : List Bytes) (t : Bytes)
    (v v' : Json F) (hoo : Ordered (.obj ms)) (ho : Ordered v) (hf : Fits v)
    (h1 : (wOp, .str wRemove) ∈ ms) (h2 : (wPath, .str p) ∈ ms) (h3 : Pointer p (ts ++ [t])) :
    patch fo v (.arr [.obj ms]) = .ok v' ↔
      Change LaxIndex (Removed LastIndex t) ts v v' ∨
      v' = v ∧ ∃ w, Leads LaxIndex ts v w ∧ (∀ ns, w ≠ .obj ns) ∧ ∀ xs, w ≠ .arr xs := by
  have hprim : ∀ w : Json F, isPrimitive w = true ↔ (∀ ns, w ≠ .obj ns) ∧ ∀ xs, w ≠ .arr xs := by
    intro w; cases w <;> simp [isPrimitive]
  simp only [← hprim]
  rw [Ordered] at hoo
  rw [patch_one, step_remove_eq fo hoo.1 h1 h2 h3]
  constructor
  · intro h
    rw [remove_at] at h
    exact change_split (upd_change ho hf h) ho hf
  · rintro (h | ⟨rfl, w, hl, hp⟩)
    · exact removeAt_run (.part h) ho
    · rw [remove_at]
      refine Spec.Change.upd ?_ ho
      have hh : removeFrom t w = .ok w := by
        cases w <;> first | rfl | cases hp
      clear h3 hf hoo
      induction hl with
      | here v => exact .here hh
      | @member t ts ms w x hm _ ih =>
        have ho' := ho
        rw [Ordered] at ho
        obtain ⟨m1, m2, rfl, _, _⟩ := lookup_split ho.1 ((lookup_mem_iff ho.1).mpr hm)
        exact .member (ih (ordered_lookup ho' ((lookup_mem_iff ho.1).mpr hm)) hp hh)
      | element hi hx _ ih =>
        rw [Ordered, orderedL_iff] at ho
        obtain ⟨ys, zs, rfl, rfl⟩ := get_split hx
        exact .element hi (ih (ho _ (by simp)) hp hh)

example : patch twoDigits exS (.arr [opRemove (ptrToString [[0x62]])]) =
    .ok (.obj [([0x61], .arr [.uint 1, .float (some 2), .str [0x78]])]) :=
  (C122_remove_iff twoDigits _ _ [] [0x62] _ _ ordered_opRemove exS_ordered (by simp [exS, Fits, FitsL, FitsM])
    List.mem_cons_self (List.mem_cons_of_mem _ List.mem_cons_self) (pointer_one _)).mpr
    (.inl (.here (.member (ms := [([0x61], .arr [.uint 1, .float (some 2), .str [0x78]])]) (ns := []))))

/-- **C122** (what holds) An operation `add` whose path without its last token leads to an object or an
array ends with a value exactly if the last token is no array index out of range, and the value is the
document with the given value there and nothing else changed. -/
theorem C122_add_partial (fo : FloatOrder F L) (ms : List (Bytes × Json F)) (p : Bytes) (ts : List Bytes) (t : Bytes)
    (x w v v' : Json F) (hoo : Ordered (.obj ms)) (ho : Ordered v) (hf : Fits v)
    (h1 : (wOp, .str wAdd) ∈ ms) (h2 : (wPath, .str p) ∈ ms) (h3 : Pointer p (ts ++ [t])) (h4 : (wValue, x) ∈ ms)
    (hl : Leads LaxIndex ts v w) (hw : w ≠ .null) :
    patch fo v (.arr [.obj ms]) = .ok v' ↔ Change LaxIndex (Added LastIndex t x) ts v v' := by
  rw [Ordered] at hoo
  rw [patch_one, step_add_eq fo hoo.1 h1 h2 h3 h4, add_at (hl.at ho)]
  constructor
  · intro h
    have hc := upd_change ho hf h
    clear h3 h
    induction hc with
    | here h =>
      cases hl
      rcases to_added ho hf h with h | ⟨h, _⟩
      · exact .here h
      · exact absurd h hw
    | @member t ts ms ns a b hc ih =>
      cases hl with
      | member hm hl =>
        have ho' := ho
        rw [Ordered] at ho
        have e := (lookup_mem_iff ho.1).mpr hm
        rw [lookup_mid (sorted_split ho.1).1] at e
        cases e
        rw [Fits, fitsM_iff] at hf
        exact .member (ih (orderedM_iff.mp ho.2 (_, _) (List.mem_append_right _ List.mem_cons_self))
          (hf (_, _) (List.mem_append_right _ List.mem_cons_self)) hl)
    | element hi hc ih =>
      cases hl with
      | element hi' hx hl =>
        rw [Ordered, orderedL_iff] at ho
        rw [Fits, fitsL_iff] at hf
        have e := (lax_tokenIndex hi).1
        rw [(lax_tokenIndex hi').1] at e
        injection e with e
        subst e
        simp at hx
        subst hx
        exact .element hi (ih (ho _ (by simp)) (hf.2 _ (by simp)) hl)
  · intro h
    exact (added_in h ho).upd ho

example (v' : Json (Option Int)) : patch twoDigits (.arr []) (.arr [opVal wAdd (ptrToString [[0x31]]) .null]) ≠ .ok v' := by
  rw [ne_eq, opVal, C122_add_partial twoDigits _ _ [] [0x31] .null (.arr []) (.arr []) v' (ordered_opVal (by simp [Ordered]))
    (by simp [Ordered, OrderedL]) (by simp [Fits, FitsL]) List.mem_cons_self (List.mem_cons_of_mem _ List.mem_cons_self)
    (pointer_one _) (List.mem_cons_of_mem _ (List.mem_cons_of_mem _ List.mem_cons_self)) (.here _) (by simp)]
  intro h
  cases h with
  | here h =>
    generalize ha : (Json.arr [] : Json (Option Int)) = a at h
    cases h with
    | new _ _ => cases ha
    | replaced => cases ha
    | appended e => simp at e
    | @inserted xs ys hi =>
      obtain ⟨rfl, rfl⟩ := List.append_eq_nil_iff.mp (Json.arr.inj ha).symm
      have := last_bare hi
      revert this
      decide

/-- **C122** (what holds) What is no patch is refused: `parse_error.104` if the patch is no array or an operation
no object; `parse_error.105` if an operation has no text under `op` or `path`, no known text under `op`, or not
the `value` or `from` that `add`, `move` and `copy` need. -/
theorem C122_malformed (fo : FloatOrder F L) (v : Json F) :
    (∀ q, (∀ os, q ≠ .arr os) → patch fo v q = .throws "parse_error.104") ∧
    (∀ o os, (∀ ms, o ≠ .obj ms) → patch fo v (.arr (o :: os)) = .throws "parse_error.104") ∧
    (∀ ms os, ((∀ s, (wOp, .str s) ∉ ms) ∨ ∀ s, (wPath, .str s) ∉ ms) → patch fo v (.arr (.obj ms :: os)) = .throws "parse_error.105") ∧
    (∀ ms os op p ts, SortedM ms → (wOp, .str op) ∈ ms → (wPath, .str p) ∈ ms → Pointer p ts →
      (op ∉ [wAdd, wRemove, wReplace, wMove, wCopy, wTest] ∨ op = wAdd ∧ (∀ x, (wValue, x) ∉ ms) ∨
        (op = wMove ∨ op = wCopy) ∧ ∀ s, (wFrom, .str s) ∉ ms) →
      patch fo v (.arr (.obj ms :: os)) = .throws "parse_error.105") := by
  have hs : ∀ (k : Bytes) (ms : List (Bytes × Json F)), (∀ s, (k, .str s) ∉ ms) → getString k ms = .throws "parse_error.105" := by
    intro k ms h
    rw [getString]
    split
    · rename_i s hl; exact absurd (lookup_mem hl) (h s)
    · rfl
  refine ⟨?_, ?_, ?_, ?_⟩
  · intro q hq
    cases q <;> first | rfl | exact absurd rfl (hq _)
  · intro o os ho
    rw [patch, patchLoop]
    cases o <;> first | rfl | exact absurd rfl (ho _)
  · intro ms os h
    rw [patch, patchLoop, patchStep]
    rcases h with h | h
    · rw [hs _ _ h]; rfl
    · rw [hs _ _ h]
      rw [getString]
      split <;> rfl
  · intro ms os op p ts hsm h1 h2 h3 h
    rw [patch, patchLoop, patchStep, getString_of hsm h1, Outcome.bind_ok, getString_of hsm h2, Outcome.bind_ok,
      pointer_split h3, Outcome.bind_ok]
    rcases h with h | ⟨rfl, h⟩ | ⟨h, hn⟩
    · simp only [List.mem_cons, List.not_mem_nil, or_false, not_or] at h
      obtain ⟨a1, a2, a3, a4, a5, a6⟩ := h
      rw [if_neg a1, if_neg a2, if_neg a3, if_neg a4, if_neg a5, if_neg a6]
      rfl
    · rw [if_pos rfl]
      have : getValue wValue ms = .throws "parse_error.105" := by
        rw [getValue]
        split
        · rename_i x hl; exact absurd (lookup_mem hl) (h x)
        · rfl
      rw [this]
      rfl
    · rcases h with rfl | rfl
      · rw [if_neg (by decide), if_neg (by decide), if_neg (by decide), if_pos rfl, hs _ _ hn]; rfl
      · rw [if_neg (by decide), if_neg (by decide), if_neg (by decide), if_neg (by decide), if_pos rfl, hs _ _ hn]; rfl

example : patch twoDigits exS (.arr [.obj [(wOp, .str wAdd)]]) = .throws "parse_error.105" :=
  (C122_malformed twoDigits exS).2.2.1 _ _ (.inr (by simp [wOp, wPath]))

/-! ## Where the RFC asks for an error -/

/-- **C122** (what does not hold) that removing what is not there is an error: below a number it is not,
and nothing is done. -/
theorem C122_remove_fails (fo : FloatOrder F L) (i : Int) (t : Bytes) :
    patch fo (.arr [.int i]) (.arr [opRemove (ptrToString [[0x30], t])]) = .ok (.arr [.int i]) ∧
    ∀ v', ¬ Performs StrictIndex StrictIndex fo (opRemove (ptrToString [[0x30], t])) (.arr [.int i]) v' := by
  constructor
  · rw [patch_one, step_opRemove]
    rfl
  · intro v' h
    have hso : SortedM [(wOp, Json.str wRemove), (wPath, (Json.str (ptrToString [[0x30], t]) : Json F))] := by
      have := ordered_opRemove (F := F) (p := ptrToString [[0x30], t])
      rw [opRemove, Ordered] at this
      exact this.1
    have hop : ∀ s : Bytes, ((wOp, Json.str s) : Bytes × Json F) ∈ [(wOp, .str wRemove), (wPath, .str (ptrToString [[0x30], t]))] → s = wRemove := by
      intro s hm
      have := (lookup_mem_iff hso).mpr hm
      rw [lookup_cons, if_pos rfl] at this
      injection this with this
      injection this with this
      exact this.symm
    rw [opRemove] at h
    cases h with
    | add h1 => exact absurd (hop _ h1) (by decide)
    | replace h1 => exact absurd (hop _ h1) (by decide)
    | move h1 => exact absurd (hop _ h1) (by decide)
    | copy h1 => exact absurd (hop _ h1) (by decide)
    | test h1 => exact absurd (hop _ h1) (by decide)
    | remove _ h2 h3 h5 =>
      have := (lookup_mem_iff hso).mpr h2
      rw [lookup_cons, if_neg (by decide), lookup_cons, if_pos rfl] at this
      injection this with this
      injection this with this
      subst this
      have e := pointer_split h3
      rw [split_ptrToString] at e
      injection e with e
      subst e
      generalize hts : [[0x30], t] = ts at h5
      cases h5 with
      | @part ts' t' _ _ h =>
        have : ts' = [[0x30]] ∧ t' = t := by
          have h' : [[0x30]] ++ [t] = ts' ++ [t'] := hts
          have := List.append_inj' h' rfl
          exact ⟨this.1.symm, by simpa using this.2.symm⟩
        obtain ⟨rfl, rfl⟩ := this
        obtain ⟨a, b, hl, hr⟩ := h.leads
        cases hl with
        | element hi hx hl =>
          cases hl
          rename_i j
          cases j with
          | succ j => simp at hx
          | zero =>
            simp at hx
            subst hx
            cases hr

example : patch twoDigits (.arr [.int 7]) (.arr [opRemove (ptrToString [[0x30], [0x61]])]) = .ok (.arr [.int 7]) :=
  (C122_remove_fails twoDigits 7 [0x61]).1

/-- `{"a": v}` -/
def exIn (v : Json F) : Json F := .obj [([0x61], v)]

/-- **C122** (what does not hold) that adding below what is not there is an error: only for the first token of
a pointer it is; below it objects and arrays are made, and a null becomes an object or array. -/
theorem C122_parents_fails (fo : FloatOrder F L) (x : Json F) :
    patch fo (exIn (.obj [])) (.arr [opVal wAdd (ptrToString [[0x61], [0x62], [0x63]]) x]) =
      .ok (exIn (.obj [([0x62], .obj [([0x63], x)])])) ∧
    patch fo (exIn .null) (.arr [opVal wAdd (ptrToString [[0x61], [0x62]]) x]) = .ok (exIn (.obj [([0x62], x)])) ∧
    patch fo (exIn (.arr [])) (.arr [opVal wAdd (ptrToString [[0x61], [0x31], [0x62]]) x]) =
      .ok (exIn (.arr [.null, .obj [([0x62], x)]])) ∧
    (∀ v', ¬ Change StrictIndex (Added StrictIndex [0x63] x) [[0x61], [0x62]] (exIn (.obj [])) v') ∧
    (∀ v', ¬ Change StrictIndex (Added StrictIndex [0x62] x) [[0x61]] (exIn .null) v') ∧
    ∀ v', ¬ Change StrictIndex (Added StrictIndex [0x62] x) [[0x61], [0x31]] (exIn (.arr [])) v' := by
  refine ⟨?_, ?_, ?_, ?_, ?_, ?_⟩
  · rw [patch_one, step_opVal, if_pos rfl]; rfl
  · rw [patch_one, step_opVal, if_pos rfl]; rfl
  · rw [patch_one, step_opVal, if_pos rfl]; rfl
  all_goals
    intro v' h
    obtain ⟨a, b, hl, hr⟩ := h.leads
    cases hl with
    | member hm hl =>
      simp at hm
      subst hm
      first
        | (cases hl with
           | here => cases hr)
        | (cases hl with
           | member hm _ => simp at hm)
        | (cases hl with
           | element _ hx _ => simp at hx)

example : patch twoDigits (exIn .null) (.arr [opVal wAdd (ptrToString [[0x61], [0x62]]) (.int 1)]) =
    .ok (exIn (.obj [([0x62], .int 1)])) := (C122_parents_fails twoDigits (.int 1)).2.1

/-- **C122** (what does not hold) that the last token of the path of `add` and `remove` is an array index of RFC
6901: it may begin with zeros, which no other token may. -/
theorem C122_index_fails (fo : FloatOrder F L) (x y z : Json F) :
    patch fo (.arr [x, y]) (.arr [opVal wAdd (ptrToString [[0x30, 0x31]]) z]) = .ok (.arr [x, z, y]) ∧
    patch fo (.arr [x, y]) (.arr [opRemove (ptrToString [[0x30, 0x31]])]) = .ok (.arr [x]) ∧
    patch fo (.arr [x, y]) (.arr [opVal wReplace (ptrToString [[0x30, 0x31]]) z]) = .throws "parse_error.106" ∧
    ∀ i, ¬ StrictIndex [0x30, 0x31] i := by
  refine ⟨?_, ?_, ?_, ?_⟩
  · rw [patch_one, step_opVal, if_pos rfl]; rfl
  · rw [patch_one, step_opRemove]; rfl
  · rw [patch_one, step_opVal, if_neg (by decide), if_neg (by decide), if_pos rfl]; rfl
  · intro i h
    rw [StrictIndex, ← toStr_eq] at h
    have := zeroLed_toStr i
    rw [← h] at this
    revert this
    decide

example : patch twoDigits (.arr [.int 1, .int 2]) (.arr [opRemove (ptrToString [[0x30, 0x31]])]) = .ok (.arr [.int 1]) :=
  (C122_index_fails twoDigits (.int 1) (.int 2) .null).2.1

/-- **C122** (what does not hold) that an operation that cannot be performed makes `patch` throw: adding below a
number violates an assertion, and with the index -1 into an empty array the behaviour is undefined. -/
theorem C122_defined_fails (fo : FloatOrder F L) (i : Int) (t : Bytes) (x : Json F) :
    patch fo (exIn (.int i)) (.arr [opVal wAdd (ptrToString [[0x61], t]) x]) = .assertFail ∧
    patch fo (exIn (.arr [])) (.arr [opVal wAdd (ptrToString [[0x61], [0x2d, 0x31], t]) x]) = .ub := by
  constructor
  · rw [patch_one, step_opVal, if_pos rfl]; rfl
  · rw [patch_one, step_opVal, if_pos rfl, operationAdd, if_neg (by simp)]
    have h : atPtr [[0x61]] (exIn (.arr []) : Json F) = .ok (.arr []) := rfl
    rw [h, Outcome.bind_ok]
    have e : ([[0x61], [0x2d, 0x31], t] : List Bytes).dropLast = [[0x61], [0x2d, 0x31]] := rfl
    rw [e, exIn, indexPtrUpd, fromNull_null (by simp)]
    simp only
    rw [lookup_cons, if_pos rfl, Option.getD_some]
    have h' : tokenIndex [0x2d, 0x31] = .ok (2 ^ 64 - 1) := by decide
    rw [indexPtrUpd, fromNull_null (by simp)]
    simp only [h', zeroLed, List.length_cons, List.length_nil, List.head?_cons]
    simp [fillTo]

example : patch twoDigits (exIn (.int 1)) (.arr [opVal wAdd (ptrToString [[0x61], [0x62]]) .null]) = .assertFail :=
  (C122_defined_fails twoDigits 1 [0x62] .null).1

/-- **C122** (what does not hold) that a value cannot be moved into itself: it is, after a new object has been made
in its place. -/
theorem C122_move_fails (fo : FloatOrder F L) (x : Json F) :
    patch fo (exIn (.obj [([0x62], x)]))
      (.arr [opFrom wMove (ptrToString [[0x61], [0x62]]) (ptrToString [[0x61], [0x62], [0x63]])]) =
      .ok (exIn (.obj [([0x62], .obj [([0x63], x)])])) := by
  have hso := ordered_opFrom (F := F) (op := wMove) (p := ptrToString [[0x61], [0x62]])
    (q := ptrToString [[0x61], [0x62], [0x63]])
  rw [opFrom, Ordered] at hso
  rw [patch_one, opFrom, patchStep, getString_of hso.1 (List.mem_cons_of_mem _ List.mem_cons_self), Outcome.bind_ok,
    getString_of hso.1 (List.mem_cons_of_mem _ (List.mem_cons_of_mem _ List.mem_cons_self)), Outcome.bind_ok,
    split_ptrToString, Outcome.bind_ok, if_neg (by decide), if_neg (by decide), if_neg (by decide), if_pos rfl,
    getString_of hso.1 List.mem_cons_self, Outcome.bind_ok, split_ptrToString, Outcome.bind_ok]
  rfl

example : patch twoDigits (exIn (.obj [([0x62], .int 1)]))
      (.arr [opFrom wMove (ptrToString [[0x61], [0x62]]) (ptrToString [[0x61], [0x62], [0x63]])]) =
      .ok (exIn (.obj [([0x62], .obj [([0x63], .int 1)])])) := C122_move_fails twoDigits (.int 1)

end Verif.Json
