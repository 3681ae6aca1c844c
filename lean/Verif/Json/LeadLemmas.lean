import Verif.Json.FollowLemmas
import Verif.Json.MapLemmas

/-!
# Lemmas about where pointers lead
-/

namespace Verif.Json
open Spec

variable {F : Type}

namespace Spec

/-- the value a pointer leads to, RFC 6901, section 4; `Ix` says which tokens are array indices -/
inductive Leads (Ix : Bytes → Nat → Prop) : List Bytes → Json F → Json F → Prop
  | here (v : Json F) : Leads Ix [] v v
  | member {t : Bytes} {ts : List Bytes} {ms : List (Bytes × Json F)} {w x : Json F} :
      (t, w) ∈ ms → Leads Ix ts w x → Leads Ix (t :: ts) (.obj ms) x
  | element {t : Bytes} {ts : List Bytes} {xs : List (Json F)} {i : Nat} {w x : Json F} :
      Ix t i → xs[i]? = some w → Leads Ix ts w x → Leads Ix (t :: ts) (.arr xs) x

/-- an array index as RFC 6901 has it: decimal, without leading zeros -/
def StrictIndex (t : Bytes) (i : Nat) : Prop := t = digits i

/-- an array index as the library has it: it may have white space and a sign before it, zeros after
these, and must be below 2^31 -/
def LaxIndex (t : Bytes) (i : Nat) : Prop :=
  IntText t i ∧ i < 2 ^ 31 ∧ ¬ ∃ c r, t = 0x30 :: c :: r

mutual
/-- no array has more than 2^31 elements: an index is an `int` -/
def Short : Json F → Prop
  | .arr xs => xs.length ≤ 2 ^ 31 ∧ ShortL xs
  | .obj ms => ShortM ms
  | .null | .bool _ | .int _ | .uint _ | .float _ | .str _ => True
def ShortL : List (Json F) → Prop
  | [] => True
  | v :: vs => Short v ∧ ShortL vs
def ShortM : List (Bytes × Json F) → Prop
  | [] => True
  | (_, v) :: ms => Short v ∧ ShortM ms
end

end Spec

theorem shortL_iff {xs : List (Json F)} : ShortL xs ↔ ∀ x ∈ xs, Short x := by
  induction xs with
  | nil => simp [ShortL]
  | cons x xs ih => rw [ShortL, ih]; simp

theorem shortM_iff {ms : List (Bytes × Json F)} : ShortM ms ↔ ∀ x ∈ ms, Short x.2 := by
  induction ms with
  | nil => simp [ShortM]
  | cons x xs ih => obtain ⟨k, v⟩ := x; rw [ShortM, ih]; simp

theorem zeroLed_iff {t : Bytes} : zeroLed t = true ↔ ∃ c r, t = 0x30 :: c :: r := by
  rw [zeroLed]
  cases t with
  | nil => simp
  | cons a t =>
    cases t with
    | nil => simp
    | cons b t =>
      simp

theorem sizeT_neg {i : Int} (h : i < 0) (h' : -2 ^ 31 ≤ i) : sizeT i = 2 ^ 64 - i.natAbs := by
  rw [sizeT]; omega

theorem intText_minus (i : Int) : ¬ IntText [0x2d] i := by
  rintro ⟨w, sg, ds, e, hw, hd, hds, hsg⟩
  cases w with
  | cons c w =>
    simp only [List.cons_append, List.cons.injEq] at e
    have := hw c (by simp)
    omega
  | nil =>
    rcases hsg with ⟨rfl, -⟩ | ⟨rfl, -⟩ | ⟨rfl, -⟩
    · simp only [List.nil_append] at e
      have := hds 0x2d (by rw [← e]; simp)
      unfold Digit at this
      omega
    · simp at e
    · simp at e; exact hd e

/-- the index a token gives, where the array has no more than 2^63 elements -/
theorem tokenIndex_lax {t : Bytes} {i n : Nat} (h : tokenIndex t = .ok i) (hi : i < n) (hn : n ≤ 2 ^ 63)
    (hz : zeroLed t = false) : LaxIndex t i := by
  rw [tokenIndex] at h
  cases ha : arrayIndex t with
  | num j =>
    rw [ha] at h
    simp only at h
    injection h with h
    obtain ⟨h1, h2, h3⟩ := arrayIndex_iff.mp ha
    have hj : 0 ≤ j := by
      by_contra hneg
      have := sizeT_neg (by omega) h2
      omega
    have hij : (i : Int) = j := by
      rw [sizeT] at h; omega
    refine ⟨by rw [hij]; exact h1, by omega, ?_⟩
    rw [← zeroLed_iff, hz]
    simp
  | _ => rw [ha] at h; simp at h

theorem lax_tokenIndex {t : Bytes} {i : Nat} (h : LaxIndex t i) : tokenIndex t = .ok i ∧ zeroLed t = false ∧ t ≠ [0x2d] := by
  obtain ⟨h1, h2, h3⟩ := h
  refine ⟨?_, ?_, ?_⟩
  · rw [tokenIndex, (arrayIndex_iff (i := i)).mpr ⟨h1, by omega, by omega⟩]
    simp only
    rw [sizeT_nat (by omega)]
  · rw [← zeroLed_iff] at h3
    simpa using h3
  · rintro rfl
    exact intText_minus _ h1

mutual
/-- arrays have at most 2^63 elements, as `std::vector` can hold -/
def Fits : Json F → Prop
  | .arr xs => xs.length ≤ 2 ^ 63 ∧ FitsL xs
  | .obj ms => FitsM ms
  | .null | .bool _ | .int _ | .uint _ | .float _ | .str _ => True
def FitsL : List (Json F) → Prop
  | [] => True
  | v :: vs => Fits v ∧ FitsL vs
def FitsM : List (Bytes × Json F) → Prop
  | [] => True
  | (_, v) :: ms => Fits v ∧ FitsM ms
end

theorem fitsL_iff {xs : List (Json F)} : FitsL xs ↔ ∀ x ∈ xs, Fits x := by
  induction xs with
  | nil => simp [FitsL]
  | cons x xs ih => rw [FitsL, ih]; simp

theorem fitsM_iff {ms : List (Bytes × Json F)} : FitsM ms ↔ ∀ x ∈ ms, Fits x.2 := by
  induction ms with
  | nil => simp [FitsM]
  | cons x xs ih => obtain ⟨k, v⟩ := x; rw [FitsM, ih]; simp

theorem Spec.Leads.at {ts : List Bytes} {v w : Json F} (h : Leads LaxIndex ts v w) (ho : Ordered v) :
    atPtr ts v = .ok w := by
  induction h with
  | here v => rfl
  | member hm _ ih =>
    have hl := (lookup_mem_iff (by rw [Ordered] at ho; exact ho.1)).mpr hm
    rw [atPtr, hl]
    exact ih (ordered_lookup ho hl)
  | element hi hx _ ih =>
    obtain ⟨h1, h2, h3⟩ := lax_tokenIndex hi
    rw [atPtr, if_neg h3, h2, h1]
    simp only [Bool.false_eq_true, if_false, Outcome.bind_ok, hx]
    rw [Ordered] at ho
    exact ih (orderedL_iff.mp ho _ (List.mem_of_getElem? hx))

theorem at_leads : ∀ {ts : List Bytes} {v w : Json F}, Fits v → atPtr ts v = .ok w → Leads LaxIndex ts v w
  | [], v, w, _, h => by rw [atPtr] at h; cases h; exact .here v
  | t :: ts, .obj ms, w, hf, h => by
    rw [atPtr] at h
    cases hl : lookup t ms with
    | none => rw [hl] at h; cases h
    | some x =>
      rw [hl] at h
      rw [Fits] at hf
      exact .member (lookup_mem hl) (at_leads (fitsM_iff.mp hf _ (lookup_mem hl)) h)
  | t :: ts, .arr xs, w, hf, h => by
    rw [atPtr] at h
    rw [Fits] at hf
    by_cases h1 : t = [0x2d]
    · rw [if_pos h1] at h; cases h
    rw [if_neg h1] at h
    by_cases h2 : zeroLed t = true
    · rw [if_pos h2] at h; cases h
    rw [if_neg h2] at h
    cases hi : tokenIndex t with
    | ok i =>
      rw [hi] at h
      simp only [Outcome.bind_ok] at h
      cases hx : xs[i]? with
      | none => rw [hx] at h; cases h
      | some x =>
        rw [hx] at h
        have hlt : i < xs.length := (List.getElem?_eq_some_iff.mp hx).1
        exact .element (tokenIndex_lax hi hlt hf.1 (by simpa using h2)) hx
          (at_leads (fitsL_iff.mp hf.2 _ (List.mem_of_getElem? hx)) h)
    | _ => rw [hi] at h; cases h
  | t :: ts, .null, w, _, h | t :: ts, .bool _, w, _, h | t :: ts, .int _, w, _, h | t :: ts, .uint _, w, _, h
  | t :: ts, .float _, w, _, h | t :: ts, .str _, w, _, h => by rw [atPtr] at h; cases h

theorem strict_lax {t : Bytes} {i : Nat} (h : StrictIndex t i) (hi : i < 2 ^ 31) : LaxIndex t i := by
  have h' : t = toStr i := by rw [toStr_eq]; exact h
  refine ⟨(arrayIndex_iff.mp (arrayIndex_toStr hi ▸ by rw [h'])).1, hi, ?_⟩
  rw [← zeroLed_iff, h', zeroLed_toStr]
  simp

theorem Spec.Leads.lax {ts : List Bytes} {v w : Json F} (h : Leads StrictIndex ts v w) (hs : Short v) :
    Leads LaxIndex ts v w := by
  induction h with
  | here v => exact .here v
  | member hm _ ih =>
    rw [Short] at hs
    exact .member hm (ih (shortM_iff.mp hs _ hm))
  | element hi hx _ ih =>
    rw [Short] at hs
    have hlt := (List.getElem?_eq_some_iff.mp hx).1
    exact .element (strict_lax hi (by omega)) hx (ih (shortL_iff.mp hs.2 _ (List.mem_of_getElem? hx)))

/-- `contains` says whether `at` finds something -/
theorem contains_iff : ∀ {ts : List Bytes} {v : Json F}, containsPtr ts v = .ok true ↔ ∃ w, atPtr ts v = .ok w
  | [], v => by simp [containsPtr, atPtr]
  | t :: ts, .obj ms => by
    rw [containsPtr, atPtr]
    cases lookup t ms with
    | none => simp
    | some x => exact contains_iff
  | t :: ts, .arr xs => by
    rw [containsPtr, atPtr]
    by_cases h1 : t = [0x2d]
    · rw [if_pos h1, if_pos h1]; simp
    rw [if_neg h1, if_neg h1]
    by_cases h2 : zeroLed t = true
    · rw [if_pos h2, if_pos h2]; simp
    rw [if_neg h2, if_neg h2]
    cases tokenIndex t with
    | ok i =>
      simp only [Outcome.bind_ok]
      cases xs[i]? with
      | none => simp
      | some x => exact contains_iff
    | _ => simp
  | t :: ts, .null | t :: ts, .bool _ | t :: ts, .int _ | t :: ts, .uint _
  | t :: ts, .float _ | t :: ts, .str _ => by simp [containsPtr, atPtr]

/-- what `contains` says where `at` throws -/
theorem contains_missing : ∀ (ts : List Bytes) (v : Json F),
    (∀ k, k = "out_of_range.401" ∨ k = "out_of_range.402" ∨ k = "out_of_range.403" → atPtr ts v = .throws k → containsPtr ts v = .ok false) ∧
    (∀ k, containsPtr ts v = .throws k → (k = "parse_error.106" ∨ k = "parse_error.109" ∨ k = "out_of_range.404") ∧ atPtr ts v = .throws k) ∧
    (containsPtr ts v = .ok false → ∃ k, atPtr ts v = .throws k)
  | [], v => by simp [containsPtr, atPtr]
  | t :: ts, .obj ms => by
    rw [containsPtr, atPtr]
    cases lookup t ms with
    | none => simp
    | some x => exact contains_missing ts x
  | t :: ts, .arr xs => by
    rw [containsPtr, atPtr]
    by_cases h1 : t = [0x2d]
    · rw [if_pos h1, if_pos h1]; simp
    rw [if_neg h1, if_neg h1]
    by_cases h2 : zeroLed t = true
    · rw [if_pos h2, if_pos h2]; simp
    rw [if_neg h2, if_neg h2, tokenIndex]
    cases arrayIndex t with
    | num i =>
      simp only [Outcome.bind_ok]
      cases xs[sizeT i]? with
      | none => simp
      | some x => exact contains_missing ts x
    | _ => simp
  | t :: ts, .null | t :: ts, .bool _ | t :: ts, .int _ | t :: ts, .uint _
  | t :: ts, .float _ | t :: ts, .str _ => by simp [containsPtr, atPtr]

/-- where `at` finds something, `operator[]` of a constant value finds the same -/
theorem const_at : ∀ {ts : List Bytes} {v w : Json F}, atPtr ts v = .ok w → constPtr ts v = .ok w
  | [], v, w, h => h
  | t :: ts, .obj ms, w, h => by
    rw [atPtr] at h
    rw [constPtr]
    cases hl : lookup t ms with
    | none => rw [hl] at h; cases h
    | some x => rw [hl] at h; exact const_at h
  | t :: ts, .arr xs, w, h => by
    rw [atPtr] at h
    rw [constPtr]
    by_cases h1 : t = [0x2d]
    · rw [if_pos h1] at h; cases h
    rw [if_neg h1] at h ⊢
    by_cases h2 : zeroLed t = true
    · rw [if_pos h2] at h; cases h
    rw [if_neg h2] at h ⊢
    cases hi : tokenIndex t with
    | ok i =>
      rw [hi] at h
      simp only [Outcome.bind_ok] at h ⊢
      cases hx : xs[i]? with
      | none => rw [hx] at h; cases h
      | some x => rw [hx] at h; exact const_at h
    | _ => rw [hi] at h; cases h
  | t :: ts, .null, w, h | t :: ts, .bool _, w, h | t :: ts, .int _, w, h | t :: ts, .uint _, w, h
  | t :: ts, .float _, w, h | t :: ts, .str _, w, h => by rw [atPtr] at h; cases h

/-- where `at` finds something, `operator[]` of a value gives the same reference -/
theorem index_at (f : Json F → Outcome (Json F)) : ∀ {ts : List Bytes} {v w : Json F}, atPtr ts v = .ok w →
    indexPtrUpd f ts v = atPtrUpd f ts v
  | [], v, w, h => rfl
  | t :: ts, .obj ms, w, h => by
    rw [atPtr] at h
    rw [indexPtrUpd, fromNull, atPtrUpd]
    · cases hl : lookup t ms with
      | none => rw [hl] at h; cases h
      | some x =>
        rw [hl] at h
        simp only [hl, Option.getD_some]
        rw [index_at f h]
    · simp
  | t :: ts, .arr xs, w, h => by
    rw [atPtr] at h
    rw [indexPtrUpd, fromNull, atPtrUpd]
    · by_cases h1 : t = [0x2d]
      · rw [if_pos h1] at h; cases h
      rw [if_neg h1] at h
      simp only [h1, if_false]
      by_cases h2 : zeroLed t = true
      · rw [if_pos h2] at h; cases h
      rw [if_neg h2] at h
      simp only [h2, Bool.false_eq_true, if_false]
      cases hi : tokenIndex t with
      | ok i =>
        rw [hi] at h
        simp only [Outcome.bind_ok] at h ⊢
        cases hx : xs[i]? with
        | none => rw [hx] at h; cases h
        | some x =>
          rw [hx] at h
          have hlt : i < xs.length := (List.getElem?_eq_some_iff.mp hx).1
          rw [fillTo, if_neg (by omega)]
          simp only [Outcome.bind_ok, hx]
          rw [index_at f h]
      | _ => rw [hi] at h; cases h
    · simp
  | t :: ts, .null, w, h | t :: ts, .bool _, w, h | t :: ts, .int _, w, h | t :: ts, .uint _, w, h
  | t :: ts, .float _, w, h | t :: ts, .str _, w, h => by rw [atPtr] at h; cases h

/-! ## Writing through a pointer -/

theorem intText_index {t : Bytes} {i : Int} (h : IntText t i) :
    arrayIndex t = if i < -2 ^ 31 ∨ 2 ^ 31 ≤ i then .range else .num i := by
  obtain ⟨w, sg, ds, rfl, hw, hd, hds, h⟩ := h
  rcases h with ⟨rfl, rfl⟩ | ⟨rfl, rfl⟩ | ⟨rfl, rfl⟩
  · rw [arrayIndex_text hw hd hds (.inl rfl)]; simp
  · rw [arrayIndex_text hw hd hds (.inr (.inl rfl))]; simp
  · rw [arrayIndex_text hw hd hds (.inr (.inr rfl))]; simp

theorem tokenIndex_int {t : Bytes} {a : Nat} (h : tokenIndex t = .ok a) :
    ∃ i : Int, IntText t i ∧ -2 ^ 31 ≤ i ∧ i < 2 ^ 31 ∧ a = sizeT i := by
  rw [tokenIndex] at h
  cases ha : arrayIndex t with
  | num j =>
    rw [ha] at h
    simp only at h
    injection h with h
    obtain ⟨h1, h2, h3⟩ := arrayIndex_iff.mp ha
    exact ⟨j, h1, h2, h3, h.symm⟩
  | _ => rw [ha] at h; simp at h

theorem tokenIndex_ne {t u : Bytes} {i j : Int} {a b : Nat} (ht : IntText t i) (hu : IntText u j) (hij : i ≠ j)
    (ha : tokenIndex t = .ok a) (hb : tokenIndex u = .ok b) : a ≠ b := by
  have key : ∀ {t : Bytes} {i : Int} {a : Nat}, IntText t i → tokenIndex t = .ok a →
      -2 ^ 31 ≤ i ∧ i < 2 ^ 31 ∧ a = sizeT i := by
    intro t i a h1 h2
    rw [tokenIndex, intText_index h1] at h2
    by_cases hr : i < -2 ^ 31 ∨ 2 ^ 31 ≤ i
    · rw [if_pos hr] at h2; cases h2
    · rw [if_neg hr] at h2
      injection h2 with h2
      exact ⟨by omega, by omega, h2.symm⟩
  obtain ⟨h1, h2, rfl⟩ := key ht ha
  obtain ⟨h3, h4, rfl⟩ := key hu hb
  rw [sizeT, sizeT]
  omega

theorem fillTo_sub {i : Nat} {xs ys : List (Json F)} (h : fillTo i xs = .ok ys) {j : Nat} {w : Json F}
    (hj : xs[j]? = some w) : ys[j]? = some w := by
  rw [fillTo] at h
  by_cases h1 : xs.length ≤ i
  · rw [if_pos h1] at h
    simp only at h
    split at h
    · cases h
    · cases h
      have := (List.getElem?_eq_some_iff.mp hj).1
      rw [List.getElem?_append_left this, hj]
  · rw [if_neg h1] at h; cases h; exact hj

theorem fillTo_ub {i : Nat} (hi : i < 2 ^ 64) {xs ys : List (Json F)} (h : fillTo i xs = .ok ys) (hn : ys[i]? = none) :
    i = 2 ^ 64 - 1 ∧ xs = [] := by
  rw [fillTo] at h
  rw [List.getElem?_eq_none_iff] at hn
  by_cases h1 : xs.length ≤ i
  · rw [if_pos h1] at h
    simp only at h
    split at h
    · cases h
    · cases h
      simp only [List.length_append, List.length_replicate] at hn
      have : xs.length = 0 ∧ i = 2 ^ 64 - 1 := by omega
      exact ⟨this.2, List.length_eq_zero_iff.mp this.1⟩
  · rw [if_neg h1] at h
    cases h
    omega

namespace Spec

/-- two pointers into a value that part at some place: neither goes through the other's end.  A token
`-` at an array is beyond all of its elements. -/
inductive Apart : List Bytes → List Bytes → Json F → Prop
  | member {t u : Bytes} {ts us : List Bytes} {ms : List (Bytes × Json F)} :
      t ≠ u → Apart (t :: ts) (u :: us) (.obj ms)
  | element {t u : Bytes} {ts us : List Bytes} {xs : List (Json F)} {i j : Int} :
      IntText t i → IntText u j → i ≠ j → Apart (t :: ts) (u :: us) (.arr xs)
  | beyond {u : Bytes} {ts us : List Bytes} {xs : List (Json F)} :
      Apart ([0x2d] :: ts) (u :: us) (.arr xs)
  | inMember {t : Bytes} {ts us : List Bytes} {ms : List (Bytes × Json F)} {w : Json F} :
      (t, w) ∈ ms → Apart ts us w → Apart (t :: ts) (t :: us) (.obj ms)
  | inElement {t u : Bytes} {ts us : List Bytes} {xs : List (Json F)} {i : Nat} {w : Json F} :
      IntText t i → IntText u i → xs[i]? = some w → Apart ts us w → Apart (t :: ts) (u :: us) (.arr xs)

end Spec

/-- what an array becomes through `operator[]` -/
theorem index_intoArr {f : Json F → Outcome (Json F)} {t : Bytes} {ts : List Bytes} {xs : List (Json F)} {v' : Json F}
    (h : indexPtrUpd f (t :: ts) (.arr xs) = .ok v') :
    ∃ i ys w w', zeroLed t = false ∧ (if t = [0x2d] then .ok xs.length else tokenIndex t) = Outcome.ok i ∧
      fillTo i xs = .ok ys ∧ ys[i]? = some w ∧ indexPtrUpd f ts w = .ok w' ∧ v' = .arr (ys.set i w') := by
  rw [indexPtrUpd, fromNull] at h
  · simp only at h
    by_cases h2 : zeroLed t = true
    · rw [if_pos h2] at h; cases h
    rw [if_neg h2] at h
    cases hi : (if t = [0x2d] then .ok xs.length else tokenIndex t : Outcome Nat) with
    | ok i =>
      rw [hi] at h
      simp only [Outcome.bind_ok] at h
      cases hy : fillTo i xs with
      | ok ys =>
        rw [hy] at h
        simp only [Outcome.bind_ok] at h
        cases hx : ys[i]? with
        | none => rw [hx] at h; cases h
        | some w =>
          rw [hx] at h
          simp only at h
          cases hr : indexPtrUpd f ts w with
          | ok w' =>
            rw [hr] at h
            simp only [Outcome.bind_ok] at h
            cases h
            exact ⟨i, ys, w, w', by simpa using h2, rfl, hy, hx, hr, rfl⟩
          | _ => rw [hr] at h; cases h
      | _ => rw [hy] at h; cases h
    | _ => rw [hi] at h; cases h
  · simp

theorem index_intoObj {f : Json F → Outcome (Json F)} {t : Bytes} {ts : List Bytes} {ms : List (Bytes × Json F)}
    {v' : Json F} (h : indexPtrUpd f (t :: ts) (.obj ms) = .ok v') :
    ∃ w', indexPtrUpd f ts ((lookup t ms).getD .null) = .ok w' ∧ v' = .obj (setKey t w' ms) := by
  rw [indexPtrUpd, fromNull] at h
  · simp only at h
    cases hr : indexPtrUpd f ts ((lookup t ms).getD .null) with
    | ok w' =>
      rw [hr] at h
      simp only [Outcome.bind_ok] at h
      cases h
      exact ⟨w', rfl, rfl⟩
    | _ => rw [hr] at h; cases h
  · simp

theorem index_frame {f : Json F → Outcome (Json F)} {ts us : List Bytes} {v : Json F} (ha : Apart ts us v) :
    ∀ {v' w : Json F}, Ordered v → indexPtrUpd f ts v = .ok v' → atPtr us v = .ok w → atPtr us v' = .ok w := by
  induction ha with
  | member hne =>
    intro v' w _ h hw
    obtain ⟨w', _, rfl⟩ := index_intoObj h
    rw [atPtr] at hw ⊢
    rw [lookup_setKey_ne (fun e => hne e.symm)]
    exact hw
  | element ht hu hij =>
    rename_i t u ts us xs i j
    intro v' w _ h hw
    obtain ⟨a, ys, z, z', hz, hi, hy, hx, hr, rfl⟩ := index_intoArr h
    rw [if_neg (by rintro rfl; exact intText_minus _ ht)] at hi
    rw [atPtr] at hw ⊢
    by_cases h1 : u = [0x2d]
    · rw [if_pos h1] at hw; cases hw
    rw [if_neg h1] at hw ⊢
    by_cases h2 : zeroLed u = true
    · rw [if_pos h2] at hw; cases hw
    rw [if_neg h2] at hw ⊢
    cases hb : tokenIndex u with
    | ok b =>
      rw [hb] at hw
      simp only [Outcome.bind_ok] at hw ⊢
      have hab := tokenIndex_ne ht hu hij hi hb
      cases hx' : xs[b]? with
      | none => rw [hx'] at hw; cases hw
      | some y =>
        rw [hx'] at hw
        rw [List.getElem?_set_ne hab, fillTo_sub hy hx']
        exact hw
    | _ => rw [hb] at hw; cases hw
  | beyond =>
    rename_i u ts us xs
    intro v' w _ h hw
    obtain ⟨a, ys, z, z', hz, hi, hy, hx, hr, rfl⟩ := index_intoArr h
    rw [if_pos rfl] at hi
    injection hi with hi
    rw [atPtr] at hw ⊢
    by_cases h1 : u = [0x2d]
    · rw [if_pos h1] at hw; cases hw
    rw [if_neg h1] at hw ⊢
    by_cases h2 : zeroLed u = true
    · rw [if_pos h2] at hw; cases hw
    rw [if_neg h2] at hw ⊢
    cases hb : tokenIndex u with
    | ok b =>
      rw [hb] at hw
      simp only [Outcome.bind_ok] at hw ⊢
      cases hx' : xs[b]? with
      | none => rw [hx'] at hw; cases hw
      | some y =>
        rw [hx'] at hw
        have hlt := (List.getElem?_eq_some_iff.mp hx').1
        rw [List.getElem?_set_ne (by omega), fillTo_sub hy hx']
        exact hw
    | _ => rw [hb] at hw; cases hw
  | inMember hm _ ih =>
    intro v' w ho h hw
    obtain ⟨w', hr, rfl⟩ := index_intoObj h
    have hl := (lookup_mem_iff (by rw [Ordered] at ho; exact ho.1)).mpr hm
    rw [hl, Option.getD_some] at hr
    rw [atPtr, hl] at hw
    rw [atPtr, lookup_setKey]
    exact ih (ordered_lookup ho hl) hr hw
  | inElement ht hu hx0 _ ih =>
    rename_i t u ts us xs i x0 _
    intro v' w ho h hw
    obtain ⟨a, ys, z, z', hz, hi, hy, hx, hr, rfl⟩ := index_intoArr h
    rw [if_neg (by rintro rfl; exact intText_minus _ ht)] at hi
    rw [atPtr] at hw ⊢
    by_cases h1 : u = [0x2d]
    · rw [if_pos h1] at hw; cases hw
    rw [if_neg h1] at hw ⊢
    by_cases h2 : zeroLed u = true
    · rw [if_pos h2] at hw; cases hw
    rw [if_neg h2] at hw ⊢
    cases hb : tokenIndex u with
    | ok b =>
      rw [hb] at hw
      simp only [Outcome.bind_ok] at hw ⊢
      have hval : ∀ {s : Bytes} {c : Nat}, IntText s i → tokenIndex s = .ok c → c = i := by
        intro s c hs hc
        rw [tokenIndex, intText_index hs] at hc
        by_cases hr : (i : Int) < -2 ^ 31 ∨ 2 ^ 31 ≤ (i : Int)
        · rw [if_pos hr] at hc; cases hc
        · rw [if_neg hr] at hc
          injection hc with hc
          rw [← hc, sizeT_nat (by omega)]
      have ea := hval ht hi
      have eb := hval hu hb
      subst ea eb
      have hy0 := fillTo_sub hy hx0
      rw [hx] at hy0
      cases hy0
      rw [hx0] at hw
      rw [List.getElem?_set_self (List.getElem?_eq_some_iff.mp hx).1]
      rw [Ordered] at ho
      exact ih (orderedL_iff.mp ho _ (List.mem_of_getElem? hx0)) hr hw
    | _ => rw [hb] at hw; cases hw

theorem fromNull_null {t : Bytes} {v : Json F} (h : v ≠ .null) : fromNull t v = v := by
  cases v <;> first | exact absurd rfl h | rfl

theorem index_null (f : Json F → Outcome (Json F)) (t : Bytes) (ts : List Bytes) :
    indexPtrUpd f (t :: ts) .null = indexPtrUpd f (t :: ts) (if t.all isDigit || t == [0x2d] then .arr [] else .obj []) := by
  rw [indexPtrUpd, indexPtrUpd]
  by_cases h : (t.all isDigit || t == [0x2d]) = true
  · simp only [fromNull, h, if_true]
  · simp only [fromNull, h, if_false, Bool.false_eq_true]

theorem index_read {x : Json F} : ∀ {ts : List Bytes} {v v' : Json F}, [0x2d] ∉ ts →
    indexPtrUpd (fun _ => .ok x) ts v = .ok v' → atPtr ts v' = .ok x := by
  intro ts
  induction ts with
  | nil => intro v v' _ h; rw [indexPtrUpd] at h; cases h; rfl
  | cons t ts ih =>
    intro v v' hm h
    have hm' : [0x2d] ∉ ts := fun h' => hm (List.mem_cons_of_mem _ h')
    have ht : t ≠ [0x2d] := fun e => hm (by rw [e]; exact List.mem_cons_self)
    have arr : ∀ xs : List (Json F), indexPtrUpd (fun _ => .ok x) (t :: ts) (.arr xs) = .ok v' → atPtr (t :: ts) v' = .ok x := by
      intro xs h
      obtain ⟨a, ys, z, z', hz, hi, hy, hx, hr, rfl⟩ := index_intoArr h
      rw [if_neg ht] at hi
      rw [atPtr, if_neg ht, hz, hi]
      simp only [Bool.false_eq_true, if_false, Outcome.bind_ok]
      rw [List.getElem?_set_self (List.getElem?_eq_some_iff.mp hx).1]
      exact ih hm' hr
    have obj : ∀ ms : List (Bytes × Json F), indexPtrUpd (fun _ => .ok x) (t :: ts) (.obj ms) = .ok v' → atPtr (t :: ts) v' = .ok x := by
      intro ms h
      obtain ⟨w', hr, rfl⟩ := index_intoObj h
      rw [atPtr, lookup_setKey]
      exact ih hm' hr
    cases v with
    | arr xs => exact arr xs h
    | obj ms => exact obj ms h
    | null =>
      rw [index_null] at h
      split at h
      · exact arr _ h
      · exact obj _ h
    | _ => rw [indexPtrUpd, fromNull_null (by simp)] at h; cases h

theorem index_ub {f : Json F → Outcome (Json F)} : ∀ {ts : List Bytes} {v : Json F},
    indexPtrUpd f ts v = .ub → (∃ x, f x = .ub) ∨ ∃ t ∈ ts, IntText t (-1) := by
  intro ts
  induction ts with
  | nil => intro v h; exact .inl ⟨v, h⟩
  | cons t ts ih =>
    intro v h
    have lift : ((∃ x, f x = .ub) ∨ ∃ t ∈ ts, IntText t (-1)) → (∃ x, f x = .ub) ∨ ∃ u ∈ t :: ts, IntText u (-1) := by
      rintro (h | ⟨u, hu, h⟩)
      · exact .inl h
      · exact .inr ⟨u, List.mem_cons_of_mem _ hu, h⟩
    have arr : ∀ xs : List (Json F), indexPtrUpd f (t :: ts) (.arr xs) = .ub → (∃ x, f x = .ub) ∨ ∃ u ∈ t :: ts, IntText u (-1) := by
      intro xs h
      rw [indexPtrUpd, fromNull_null (by simp)] at h
      simp only at h
      by_cases h2 : zeroLed t = true
      · rw [if_pos h2] at h; cases h
      rw [if_neg h2] at h
      cases hi : (if t = [0x2d] then .ok xs.length else tokenIndex t : Outcome Nat) with
      | ok i =>
        rw [hi] at h
        simp only [Outcome.bind_ok] at h
        cases hy : fillTo i xs with
        | ok ys =>
          rw [hy] at h
          simp only [Outcome.bind_ok] at h
          cases hx : ys[i]? with
          | none =>
            by_cases h1 : t = [0x2d]
            · rw [if_pos h1] at hi
              injection hi with hi
              rw [fillTo, if_pos (by omega)] at hy
              simp only at hy
              split at hy
              · cases hy
              · cases hy
                rw [List.getElem?_eq_none_iff] at hx
                simp only [List.length_append, List.length_replicate] at hx
                have : (i - xs.length + 1) % 2 ^ 64 = 1 := by rw [← hi]; simp
                omega
            · rw [if_neg h1] at hi
              obtain ⟨j, hj, hj1, hj2, rfl⟩ := tokenIndex_int hi
              have hlt : sizeT j < 2 ^ 64 := by rw [sizeT]; omega
              have := (fillTo_ub hlt hy hx).1
              rw [sizeT] at this
              have : j = -1 := by omega
              subst this
              exact .inr ⟨t, List.mem_cons_self, hj⟩
          | some w =>
            rw [hx] at h
            simp only at h
            cases hr : indexPtrUpd f ts w with
            | ub => exact lift (ih hr)
            | _ => rw [hr] at h; cases h
        | ub =>
          rw [fillTo] at hy
          split at hy
          · simp only at hy
            split at hy <;> cases hy
          · cases hy
        | _ => rw [hy] at h; cases h
      | ub =>
        split at hi
        · cases hi
        · rw [tokenIndex] at hi
          split at hi <;> cases hi
      | _ => rw [hi] at h; cases h
    have obj : ∀ ms : List (Bytes × Json F), indexPtrUpd f (t :: ts) (.obj ms) = .ub → (∃ x, f x = .ub) ∨ ∃ u ∈ t :: ts, IntText u (-1) := by
      intro ms h
      rw [indexPtrUpd, fromNull_null (by simp)] at h
      simp only at h
      cases hr : indexPtrUpd f ts ((lookup t ms).getD .null) with
      | ub => exact lift (ih hr)
      | _ => rw [hr] at h; cases h
    cases v with
    | arr xs => exact arr xs h
    | obj ms => exact obj ms h
    | null =>
      rw [index_null] at h
      split at h
      · exact arr _ h
      · exact obj _ h
    | _ => rw [indexPtrUpd, fromNull_null (by simp)] at h; cases h

end Verif.Json
