import Verif.Json.PatchLemmas
import Verif.Json.PropsCompare

/-!
# The difference of two JSON values (C121)
-/

namespace Verif.Json
open Spec

variable {F L : Type} [LinearOrder L]

theorem patch_diff (fo : FloatOrder F L) {s t : Json F} (ho : Ordered s) (hs : Short s) (ht : Short t) :
    patch fo s (diff fo s t) = .ok (patched fo s t) := by
  have := run_diff fo s t Focus.root [] ho hs ht
  rw [ptrToString_nil, List.append_nil] at this
  rw [diff, patch, this, patchLoop]

/-! ## No difference -/

theorem diffRec_same (fo : FloatOrder F L) {s t : Json F} (h : eqV fo s t = true) (p : Bytes) :
    diffRec fo s t p = [] := by
  cases s <;> cases t <;> first
    | rw [diffRec_arr, if_pos h]
    | rw [diffRec_obj, if_pos h]
    | rw [diffRec_mixed fo ⟨by simp, by simp⟩, if_pos h]

theorem eqM_all (fo : FloatOrder F L) {ns : List (Bytes × Json F)} (h : ∀ x ∈ ns, eqV fo x.2 x.2 = true) :
    eqM fo ns ns = true := by
  induction ns with
  | nil => simp [eqM]
  | cons x ns ih =>
    obtain ⟨k, v⟩ := x
    simp [eqM, h (k, v) List.mem_cons_self, ih fun x hx => h x (List.mem_cons_of_mem _ hx)]

theorem diffNew_nil {p : Bytes} {ms : List (Bytes × Json F)} : ∀ {ns : List (Bytes × Json F)},
    diffNew p ms ns = [] → ∀ x ∈ ns, lookup x.1 ms ≠ none
  | [], _, _, h => by simp at h
  | (k, v) :: ns, h, x, hx => by
    rw [diffNew] at h
    cases hl : lookup k ms with
    | none => rw [hl] at h; cases h
    | some _ =>
      rw [hl] at h
      rcases List.mem_cons.mp hx with rfl | hx
      · rw [hl]; simp
      · exact diffNew_nil h x hx

mutual
theorem diff_nil (fo : FloatOrder F L) : ∀ (s t : Json F) (p : Bytes), Ordered s → Ordered t →
    diffRec fo s t p = [] → eqV fo s t = true
  | .arr xs, t, p, hs, ht, h => by
    cases t with
    | arr ys =>
      rw [diffRec_arr] at h
      by_cases h1 : eqV fo (.arr xs) (.arr ys) = true
      · exact h1
      rw [if_neg h1] at h
      rw [eqV]
      rw [Ordered] at hs ht
      exact diff_nilL fo xs ys p 0 hs ht h
    | _ =>
      rw [diffRec_mixed fo ⟨by simp, by simp⟩] at h
      by_contra h1
      rw [if_neg h1] at h
      cases h
  | .obj ms, t, p, hs, ht, h => by
    cases t with
    | obj ns =>
      rw [diffRec_obj] at h
      by_cases h1 : eqV fo (.obj ms) (.obj ns) = true
      · exact h1
      rw [if_neg h1] at h
      obtain ⟨h2, h3⟩ := List.append_eq_nil_iff.mp h
      rw [Ordered] at hs ht
      have hb : ∀ k, (lookup k ms = none ∧ lookup k ns = none) ∨
          ∃ a b, lookup k ms = some a ∧ lookup k ns = some b ∧ eqV fo a b = true := by
        intro k
        cases hk : lookup k ms with
        | none =>
          left
          refine ⟨rfl, ?_⟩
          cases hl : lookup k ns with
          | none => rfl
          | some w => exact absurd hk (diffNew_nil h3 _ (lookup_mem hl))
        | some v =>
          right
          obtain ⟨w, hw, he⟩ := diff_nilM fo ns ms p ht.2 hs.2 h2 k v (lookup_mem hk)
          exact ⟨v, w, rfl, hw, he⟩
      rw [eqV, eqM_ext fo hs.1 ht.1]
      · refine eqM_all fo fun x hx => ?_
        rcases hb x.1 with ⟨_, h0⟩ | ⟨a, b, _, h0, he⟩
        · exact absurd rfl (lookup_none_iff.mp h0 x hx)
        · rw [(lookup_mem_iff ht.1).mpr (show (x.1, x.2) ∈ ns from hx)] at h0
          cases h0
          exact eqV_right_self fo he
      · intro k
        rcases hb k with h0 | ⟨a, b, ha, hb, he⟩
        · exact .inl h0
        · exact .inr ⟨a, b, ha, hb, by rw [he, eqV_right_self fo he]⟩
    | _ =>
      rw [diffRec_mixed fo ⟨by simp, by simp⟩] at h
      by_contra h1
      rw [if_neg h1] at h
      cases h
  | .null, t, p, _, _, h | .bool _, t, p, _, _, h | .int _, t, p, _, _, h | .uint _, t, p, _, _, h
  | .float _, t, p, _, _, h | .str _, t, p, _, _, h => by
    rw [diffRec_mixed fo ⟨by simp, by simp⟩] at h
    by_contra h1
    rw [if_neg h1] at h
    cases h
theorem diff_nilL (fo : FloatOrder F L) : ∀ (xs ys : List (Json F)) (p : Bytes) (i : Nat), OrderedL xs → OrderedL ys →
    diffArr fo p i xs ys = [] → eqL fo xs ys = true
  | [], [], _, _, _, _, _ => by simp [eqL]
  | [], y :: ys, _, _, _, _, h => by rw [diffArr, diffAdds] at h; cases h
  | x :: xs, [], _, _, _, _, h => by rw [diffArr, diffRemoves] at h; simp at h
  | x :: xs, y :: ys, p, i, hs, ht, h => by
    rw [OrderedL] at hs ht
    rw [diffArr] at h
    obtain ⟨h1, h2⟩ := List.append_eq_nil_iff.mp h
    rw [eqL, diff_nil fo x y _ hs.1 ht.1 h1, diff_nilL fo xs ys p (i + 1) hs.2 ht.2 h2]
    rfl
theorem diff_nilM (fo : FloatOrder F L) (ns : List (Bytes × Json F)) : ∀ (ms : List (Bytes × Json F)) (p : Bytes),
    OrderedM ns → OrderedM ms → diffObj fo p ns ms = [] → ∀ k v, (k, v) ∈ ms →
    ∃ w, lookup k ns = some w ∧ eqV fo v w = true
  | [], _, _, _, _, _, _, h => by simp at h
  | (l, u) :: ms, p, hn, hm, h, k, v, hk => by
    rw [OrderedM] at hm
    rw [diffObj] at h
    obtain ⟨h1, h2⟩ := List.append_eq_nil_iff.mp h
    by_cases e : (k, v) = (l, u)
    · obtain ⟨rfl, rfl⟩ := Prod.mk.inj e
      cases hl : lookup k ns with
      | none => rw [hl] at h1; cases h1
      | some w =>
        rw [hl] at h1
        exact ⟨w, rfl, diff_nil fo _ w _ hm.1 (orderedM_mem hn (lookup_mem hl)) h1⟩
    · exact diff_nilM fo ns ms p hn hm.2 h2 k v ((List.mem_cons.mp hk).resolve_left e)
end

/-! ## The operations used -/

namespace Spec

/-- an operation `remove` with a path -/
def IsRemove (o : Json F) : Prop := ∃ s ts, Pointer s ts ∧ o = .obj [(wOp, .str wRemove), (wPath, .str s)]

/-- an operation `add` or `replace` with a path and a value -/
def IsPut (o : Json F) : Prop :=
  ∃ op s ts x, (op = wAdd ∨ op = wReplace) ∧ Pointer s ts ∧ o = .obj [(wOp, .str op), (wPath, .str s), (wValue, x)]

end Spec

theorem isPut {op : Bytes} (h : op = wAdd ∨ op = wReplace) (P : List Bytes) (x : Json F) :
    IsPut (opVal op (ptrToString P) x) := ⟨op, _, P, x, h, pointer_text P, rfl⟩

theorem isRemove (P : List Bytes) : IsRemove (opRemove (ptrToString P) : Json F) := ⟨_, P, pointer_text P, rfl⟩

theorem ops_removes (P : List Bytes) : ∀ (xs : List (Json F)) (i : Nat), ∀ o ∈ diffRemoves (ptrToString P) i xs,
    IsRemove o ∨ IsPut o
  | [], _, _, h => by rw [diffRemoves] at h; simp at h
  | x :: xs, i, o, h => by
    rw [diffRemoves, ← escape_toStr, ← ptrToString_snoc, List.mem_append, List.mem_singleton] at h
    rcases h with h | rfl
    · exact ops_removes P xs (i + 1) o h
    · exact .inl (isRemove _)

theorem ops_adds (P : List Bytes) : ∀ (xs : List (Json F)) (i : Nat), ∀ o ∈ diffAdds (ptrToString P) i xs,
    IsRemove o ∨ IsPut o
  | [], _, _, h => by rw [diffAdds] at h; simp at h
  | x :: xs, i, o, h => by
    rw [diffAdds, ← escape_toStr, ← ptrToString_snoc, List.mem_cons] at h
    rcases h with rfl | h
    · exact .inr (isPut (.inl rfl) _ _)
    · exact ops_adds P xs (i + 1) o h

theorem ops_new (P : List Bytes) (ms : List (Bytes × Json F)) : ∀ (ns : List (Bytes × Json F)),
    ∀ o ∈ diffNew (ptrToString P) ms ns, IsRemove o ∨ IsPut o
  | [], _, h => by rw [diffNew] at h; simp at h
  | (k, v) :: ns, o, h => by
    rw [diffNew, ← ptrToString_snoc] at h
    cases hl : lookup k ms with
    | none =>
      rw [hl] at h
      rcases List.mem_cons.mp h with rfl | h
      · exact .inr (isPut (.inl rfl) _ _)
      · exact ops_new P ms ns o h
    | some _ => rw [hl] at h; exact ops_new P ms ns o h

mutual
theorem ops_diff (fo : FloatOrder F L) : ∀ (s t : Json F) (P : List Bytes),
    ∀ o ∈ diffRec fo s t (ptrToString P), IsRemove o ∨ IsPut o
  | .arr xs, t, P, o, h => by
    cases t with
    | arr ys =>
      rw [diffRec_arr] at h
      split_ifs at h with h1
      · simp at h
      · exact ops_diffL fo xs ys P 0 o h
    | _ =>
      rw [diffRec_mixed fo ⟨by simp, by simp⟩] at h
      split_ifs at h with h1
      · simp at h
      · rw [List.mem_singleton.mp h]; exact .inr (isPut (.inr rfl) _ _)
  | .obj ms, t, P, o, h => by
    cases t with
    | obj ns =>
      rw [diffRec_obj] at h
      split_ifs at h with h1
      · simp at h
      · rcases List.mem_append.mp h with h | h
        · exact ops_diffM fo ns ms P o h
        · exact ops_new P ms ns o h
    | _ =>
      rw [diffRec_mixed fo ⟨by simp, by simp⟩] at h
      split_ifs at h with h1
      · simp at h
      · rw [List.mem_singleton.mp h]; exact .inr (isPut (.inr rfl) _ _)
  | .null, t, P, o, h | .bool _, t, P, o, h | .int _, t, P, o, h | .uint _, t, P, o, h
  | .float _, t, P, o, h | .str _, t, P, o, h => by
    rw [diffRec_mixed fo ⟨by simp, by simp⟩] at h
    split_ifs at h with h1
    · simp at h
    · rw [List.mem_singleton.mp h]; exact .inr (isPut (.inr rfl) _ _)
theorem ops_diffL (fo : FloatOrder F L) : ∀ (xs ys : List (Json F)) (P : List Bytes) (i : Nat),
    ∀ o ∈ diffArr fo (ptrToString P) i xs ys, IsRemove o ∨ IsPut o
  | [], ys, P, i, o, h => by rw [diffArr] at h; exact ops_adds P ys i o h
  | x :: xs, [], P, i, o, h => by rw [diffArr] at h; exact ops_removes P (x :: xs) i o h
  | x :: xs, y :: ys, P, i, o, h => by
    rw [diffArr, ← escape_toStr, ← ptrToString_snoc, List.mem_append] at h
    rcases h with h | h
    · exact ops_diff fo x y _ o h
    · exact ops_diffL fo xs ys P (i + 1) o h
theorem ops_diffM (fo : FloatOrder F L) (ns : List (Bytes × Json F)) : ∀ (ms : List (Bytes × Json F)) (P : List Bytes),
    ∀ o ∈ diffObj fo (ptrToString P) ns ms, IsRemove o ∨ IsPut o
  | [], P, o, h => by rw [diffObj] at h; simp at h
  | (k, v) :: ms, P, o, h => by
    rw [diffObj, ← ptrToString_snoc, List.mem_append] at h
    rcases h with h | h
    · cases hl : lookup k ns with
      | none =>
        rw [hl] at h
        rw [List.mem_singleton.mp h]
        exact .inl (isRemove _)
      | some w => rw [hl] at h; exact ops_diff fo v w _ o h
    · exact ops_diffM fo ns ms P o h
end

/-! ## The properties -/

/-- for the examples: `{"a": [1, 2.0, "x"], "b": null}` -/
def exS : Json (Option Int) :=
  .obj [([0x61], .arr [.uint 1, .float (some 2), .str [0x78]]), ([0x62], .null)]

/-- for the examples: `{"a": [1, 3], "c/": {}}` -/
def exT : Json (Option Int) :=
  .obj [([0x61], .arr [.uint 1, .int 3]), ([0x63, 0x2f], .obj [])]

theorem exS_ordered : Ordered exS := by simp [exS, Ordered, OrderedL, OrderedM, List.cons_lt_cons_iff]
theorem exT_ordered : Ordered exT := by simp [exT, Ordered, OrderedL, OrderedM, List.cons_lt_cons_iff]
theorem exS_short : Short exS := by simp [exS, Short, ShortL, ShortM]
theorem exT_short : Short exT := by simp [exT, Short, ShortL, ShortM]

/-- **C121** (what holds) `s.patch(diff(s, t))` ends and gives a value equal to `t`, for all values with arrays
of at most 2^31 elements and without a NaN in `t`. -/
theorem C121_round_trip_partial (fo : FloatOrder F L) (s t : Json F) (hs : Ordered s) (ht : Ordered t)
    (ks : Short s) (kt : Short t) (hn : ∀ x ∈ floats t, fo.place x ≠ none) :
    ∃ r, patch fo s (diff fo s t) = .ok r ∧ eqV fo r t = true := by
  refine ⟨_, patch_diff fo hs ks kt, ?_⟩
  rw [eq_patched fo s t hs ht]
  exact (eqV_self fo t).mpr hn

example : ∃ r, patch twoDigits exS (diff twoDigits exS exT) = .ok r ∧ eqV twoDigits r exT = true :=
  C121_round_trip_partial twoDigits exS exT exS_ordered exT_ordered exS_short exT_short
    (by simp [exT, floats, floatsL, floatsM])

/-- **C121** (what does not hold) that `s.patch(diff(s, t)) == t` also if there is a NaN in `t`: then the
patch ends, but no value is equal to `t`. -/
theorem C121_nan_fails (fo : FloatOrder F L) (s t : Json F) (hs : Ordered s) (ks : Short s) (kt : Short t)
    (hn : ∃ x ∈ floats t, fo.place x = none) :
    ∃ r, patch fo s (diff fo s t) = .ok r ∧ eqV fo r t = false := by
  refine ⟨_, patch_diff fo hs ks kt, ?_⟩
  obtain ⟨x, hx, hx'⟩ := hn
  by_contra h
  exact (eqV_self fo t).mp (eqV_right_self fo (by simpa using h)) x hx hx'

example : ∃ r, patch twoDigits exS (diff twoDigits exS (.arr [.float none])) = .ok r ∧
    eqV twoDigits r (.arr [.float none]) = false :=
  C121_nan_fails twoDigits exS _ exS_ordered exS_short (by simp [Short, ShortL])
    ⟨none, by simp [floats, floatsL], rfl⟩

theorem diffArr_same (fo : FloatOrder F L) (x : Json F) : ∀ (xs : List (Json F)) (i : Nat),
    eqL fo xs xs = true → diffArr fo [] i xs (xs ++ [x]) = diffAdds [] (i + xs.length) [x]
  | [], i, _ => by rw [diffArr]; rfl
  | y :: xs, i, h => by
    rw [eqL, Bool.and_eq_true] at h
    rw [List.cons_append, diffArr, diffArr_same fo x xs (i + 1) h.2, diffRec_same fo h.1, List.length_cons]
    rw [List.nil_append, show i + 1 + xs.length = i + (xs.length + 1) by omega]

theorem eqL_snoc (fo : FloatOrder F L) (x : Json F) : ∀ (xs : List (Json F)), eqL fo xs (xs ++ [x]) = false
  | [] => by simp [eqL]
  | y :: xs => by rw [List.cons_append, eqL, eqL_snoc fo x xs]; simp

/-- **C121** (what does not hold) that `s.patch(diff(s, t)) == t` also for longer arrays: if `t` is `s` and one
more element behind 2^31 or more, `std::out_of_range` is thrown. -/
theorem C121_long_fails (fo : FloatOrder F L) (xs : List (Json F)) (x : Json F) (hx : 2 ^ 31 ≤ xs.length)
    (hn : ∀ x ∈ floatsL xs, fo.place x ≠ none) :
    patch fo (.arr xs) (diff fo (.arr xs) (.arr (xs ++ [x]))) = .outOfRange := by
  rw [diff, diffRec_arr, if_neg, patch, diffArr_same fo x xs 0 ((eqL_self fo xs).mpr hn), Nat.zero_add, diffAdds, diffAdds,
    patchLoop]
  · have := step_add fo (K := fun a => a) Focus.root (.arr xs) x (toStr xs.length)
    rw [ptrToString_nil, escape_toStr] at this
    rw [this, addTo, if_neg (toStr_minus _), bareIndex, arrayIndex_big hx]
    rfl
  · rw [eqV, eqL_snoc]; simp

example : patch twoDigits (.arr (List.replicate (2 ^ 31) .null))
    (diff twoDigits (.arr (List.replicate (2 ^ 31) .null)) (.arr (List.replicate (2 ^ 31) .null ++ [.null]))) =
      .outOfRange := by
  refine C121_long_fails twoDigits _ _ (by rw [List.length_replicate]; exact Nat.le_refl _) ?_
  generalize 2 ^ 31 = n
  induction n with
  | zero => simp [floatsL]
  | succ n ih => rw [List.replicate_succ]; simpa [floatsL, floats] using ih

/-- **C121** (what holds) `diff(s, t)` is empty exactly if `s == t`. -/
theorem C121_empty_iff (fo : FloatOrder F L) (s t : Json F) (hs : Ordered s) (ht : Ordered t) :
    diff fo s t = .arr [] ↔ eqV fo s t = true := by
  rw [diff, Json.arr.injEq]
  constructor
  · exact diff_nil fo s t [] hs ht
  · exact fun h => diffRec_same fo h []

example : diff twoDigits exA exA = .arr [] ∧ diff twoDigits exS exT ≠ .arr [] := by
  constructor
  · exact (C121_empty_iff twoDigits exA exA (by simp [exA, Ordered, OrderedL, OrderedM])
      (by simp [exA, Ordered, OrderedL, OrderedM])).mpr rfl
  · rw [ne_eq, C121_empty_iff twoDigits exS exT exS_ordered exT_ordered]
    simp [exS, exT, eqV, eqM, eqL]

/-- **C121** (what holds) What `diff` returns is an array of operations `add`, `remove` and `replace`, each with
a path that is a JSON pointer and, for the first and the last, a value. -/
theorem C121_operations (fo : FloatOrder F L) (s t : Json F) :
    ∃ os, diff fo s t = .arr os ∧ ∀ o ∈ os, IsRemove o ∨ IsPut o :=
  ⟨_, rfl, by have := ops_diff fo s t []; rwa [ptrToString_nil] at this⟩

example : diff twoDigits exS exT = .arr [
    .obj [(wOp, .str wReplace), (wPath, .str [0x2f, 0x61, 0x2f, 0x31]), (wValue, .int 3)],
    .obj [(wOp, .str wRemove), (wPath, .str [0x2f, 0x61, 0x2f, 0x32])],
    .obj [(wOp, .str wRemove), (wPath, .str [0x2f, 0x62])],
    .obj [(wOp, .str wAdd), (wPath, .str [0x2f, 0x63, 0x7e, 0x31]), (wValue, .obj [])]] := by
  simp [diff, exS, exT, diffRec, diffObj, diffNew, diffArr, diffRemoves, eqV, eqM, eqL, typeTag, lookup_cons, lookup_nil,
    opVal, opRemove, toStr, escape_eq, esc, twoDigits, FloatOrder.eq]

end Verif.Json
