import Verif.Json.CborLemmas

/-!
# Every CBOR item is read
-/

namespace Verif.Json
open Spec Spec.Cbor

/-- the size `L` of the input is within the limits of the machine -/
structure Spec.Room (m : Mach) (L : Nat) : Prop where
  arr : L ≤ m.maxArr
  obj : L ≤ m.maxObj
  str : L ≤ m.maxStr
  size : L < 2 ^ 64 - 1

theorem Spec.Room.mono {m : Mach} {L L' : Nat} (h : Room m L) (hl : L' ≤ L) : Room m L' :=
  ⟨by have := h.arr; omega, by have := h.obj; omega, by have := h.str; omega, by have := h.size; omega⟩

/-- decides which branch is taken -/
macro "branch" : tactic =>
  `(tactic| repeat (first | rw [if_pos (by omega)] | rw [if_neg (by omega)]))

/-- lengths of lists -/
macro "lens" : tactic =>
  `(tactic| (simp only [List.length_append, List.length_cons, List.length_nil]; omega))

theorem four_cases {k : Nat} (h : k < 4) : k = 0 ∨ k = 1 ∨ k = 2 ∨ k = 3 := by omega

theorem Spec.Cbor.Head.length_pos {major n : Nat} {t : Bytes} (h : Head major n t) : 0 < t.length := by
  cases h <;> simp

theorem head_str (m : Mach) (ex : Bool) {n : Nat} {t : Bytes} (h : Head 3 n t) :
    ∃ c t', t = c :: t' ∧ 0x60 ≤ c ∧ c ≤ 0x7B ∧ ∀ fuel r,
      cborString m ex (fuel + 1) (some c) (t' ++ r) = takeString m ex n r := by
  cases h with
  | tiny h =>
    refine ⟨_, [], rfl, by omega, by omega, fun fuel r => ?_⟩
    rw [cborString, if_pos (by omega), List.nil_append]
    congr 1
    omega
  | @more k bs hk hl hb =>
    refine ⟨_, bs, rfl, by omega, by omega, fun fuel r => ?_⟩
    rw [cborString]
    rcases four_cases hk with rfl | rfl | rfl | rfl <;>
      (branch; rw [getNumber_append m hl]; rfl)

theorem head_uint (m : Mach) (ex : Bool) {n : Nat} {t : Bytes} (h : Head 0 n t) :
    ∃ c t', t = c :: t' ∧ c ≠ 0xFF ∧ ∀ fuel r,
      cborV m ex (fuel + 1) (some c) (t' ++ r) = .ok ([.uint n], r) := by
  cases h with
  | tiny h =>
    refine ⟨_, [], rfl, by omega, fun fuel r => ?_⟩
    rw [cborV, if_pos (by omega), List.nil_append]
    simp
  | @more k bs hk hl hb =>
    refine ⟨_, bs, rfl, by omega, fun fuel r => ?_⟩
    rw [cborV]
    rcases four_cases hk with rfl | rfl | rfl | rfl <;>
      (branch; rw [getNumber_append m hl]; rfl)

theorem head_neg (m : Mach) (ex : Bool) {n : Nat} {t : Bytes} (h : Head 1 n t) :
    ∃ c t', t = c :: t' ∧ c ≠ 0xFF ∧ n < 2 ^ 64 ∧ ∀ fuel r,
      cborV m ex (fuel + 1) (some c) (t' ++ r) = .ok ([.int (-1 - toSigned n)], r) := by
  have small : ∀ n, n < 2 ^ 63 → toSigned n = n := fun n h => by
    rw [toSigned, Nat.mod_eq_of_lt (by omega), if_pos h]
  cases h with
  | tiny h =>
    refine ⟨_, [], rfl, by omega, by omega, fun fuel r => ?_⟩
    rw [cborV, small _ (by omega)]
    branch
    simp only [List.nil_append, Rd.ok.injEq, Prod.mk.injEq, List.cons.injEq, Event.int.injEq, and_true]
    omega
  | @more k bs hk hl hb =>
    have hlt := big_lt hb
    rw [hl] at hlt
    refine ⟨_, bs, rfl, by omega, ?_, fun fuel r => ?_⟩
    · rcases four_cases hk with rfl | rfl | rfl | rfl <;> omega
    · rw [cborV]
      rcases four_cases hk with rfl | rfl | rfl | rfl
      · branch; rw [getNumber_append m hl, small _ (by omega)]; rfl
      · branch; rw [getNumber_append m hl, small _ (by omega)]; rfl
      · branch; rw [getNumber_append m hl, small _ (by omega)]; rfl
      · branch; rw [getNumber_append m hl]; rfl

theorem head_arr (m : Mach) (ex : Bool) {n : Nat} {t : Bytes} (h : Head 4 n t) :
    ∃ c t', t = c :: t' ∧ c ≠ 0xFF ∧ ∀ fuel r,
      cborV m ex (fuel + 1) (some c) (t' ++ r) = cborArr m ex fuel n r := by
  cases h with
  | tiny h =>
    refine ⟨_, [], rfl, by omega, fun fuel r => ?_⟩
    rw [cborV]
    branch
    rw [List.nil_append]
    congr 1
    omega
  | @more k bs hk hl hb =>
    refine ⟨_, bs, rfl, by omega, fun fuel r => ?_⟩
    rw [cborV]
    rcases four_cases hk with rfl | rfl | rfl | rfl <;>
      (branch; rw [getNumber_append m hl]; rfl)

theorem head_obj (m : Mach) (ex : Bool) {n : Nat} {t : Bytes} (h : Head 5 n t) :
    ∃ c t', t = c :: t' ∧ c ≠ 0xFF ∧ ∀ fuel r,
      cborV m ex (fuel + 1) (some c) (t' ++ r) = cborObj m ex fuel n r := by
  cases h with
  | tiny h =>
    refine ⟨_, [], rfl, by omega, fun fuel r => ?_⟩
    rw [cborV]
    branch
    rw [List.nil_append]
    congr 1
    omega
  | @more k bs hk hl hb =>
    refine ⟨_, bs, rfl, by omega, fun fuel r => ?_⟩
    rw [cborV]
    rcases four_cases hk with rfl | rfl | rfl | rfl <;>
      (branch; rw [getNumber_append m hl]; rfl)

mutual
theorem text_read (m : Mach) (ex : Bool) {t s : Bytes} (h : Text true t s) (hr : Room m t.length) :
    ∃ c t', t = c :: t' ∧ ((0x60 ≤ c ∧ c ≤ 0x7B) ∨ c = 0x7F) ∧ ∀ fuel r, 2 * t.length ≤ fuel →
      cborString m ex fuel (some c) (t' ++ r) = .ok (s, r) := by
  match h with
  | .whole (t := t) (s := s) h _ =>
    obtain ⟨c, t', rfl, h1, h2, hc⟩ := head_str m ex h
    refine ⟨c, t' ++ s, rfl, .inl ⟨h1, h2⟩, fun fuel r hf => ?_⟩
    have := hr.str
    simp only [List.length_append, List.length_cons] at hf this
    obtain ⟨fuel, rfl⟩ : ∃ f, fuel = f + 1 := ⟨fuel - 1, by omega⟩
    rw [List.append_assoc, hc, takeString_append m ex rfl (by omega)]
  | .pieces (ts := ts) (s := s) h =>
    refine ⟨0x7F, ts ++ [0xFF], rfl, .inr rfl, fun fuel r hf => ?_⟩
    simp only [List.length_append, List.length_cons, List.length_nil] at hf
    obtain ⟨fuel, rfl⟩ : ∃ f, fuel = f + 1 := ⟨fuel - 1, by omega⟩
    rw [cborString]
    branch
    rw [List.append_assoc]
    exact pieces_read m ex h (hr.mono (by lens)) fuel r (by omega)
theorem pieces_read (m : Mach) (ex : Bool) {t s : Bytes} (h : Pieces true t s) (hr : Room m t.length) :
    ∀ fuel r, 2 * t.length + 1 ≤ fuel → cborChunks m ex fuel (t ++ 0xFF :: r) = .ok (s, r) := by
  match h with
  | .nil =>
    intro fuel r hf
    obtain ⟨fuel, rfl⟩ : ∃ f, fuel = f + 1 := ⟨fuel - 1, by omega⟩
    rw [List.nil_append, cborChunks, if_pos rfl]
  | .cons (t := t) (ts := ts) h _ h' =>
    intro fuel r hf
    obtain ⟨c, t', rfl, hc, e⟩ := text_read m ex h (hr.mono (by lens))
    simp only [List.length_append, List.length_cons] at hf
    obtain ⟨fuel, rfl⟩ : ∃ f, fuel = f + 1 := ⟨fuel - 1, by omega⟩
    rw [List.append_assoc, List.cons_append, cborChunks, if_neg (by omega),
      e fuel _ (by lens), Rd.ok_bind, pieces_read m ex h' (hr.mono (by lens)) fuel r (by omega)]
    rfl
end

theorem text_length_pos {lax : Bool} {t s : Bytes} (h : Text lax t s) : 0 < t.length := by
  cases h with
  | whole h _ => have := h.length_pos; simp; omega
  | pieces _ => simp

theorem item_length_pos {lax : Bool} {t : Bytes} {v : Json Nat} (h : Item lax t v) : 0 < t.length := by
  cases h with
  | uint h => exact h.length_pos
  | neg h => exact h.length_pos
  | str h => exact text_length_pos h
  | arr h _ => have := h.length_pos; simp; omega
  | obj h _ => have := h.length_pos; simp; omega
  | laxNeg _ h _ => exact h.length_pos
  | laxArr _ h _ => have := h.length_pos; lens
  | laxObj _ h _ => have := h.length_pos; lens
  | _ => simp

theorem items_length {lax : Bool} : ∀ {t : Bytes} {vs : List (Json Nat)}, Items lax t vs → vs.length ≤ t.length
  | _, _, .nil => by simp
  | _, _, .cons h h' => by
    have := item_length_pos h
    have := items_length h'
    simp
    omega

theorem pairs_length {lax : Bool} : ∀ {t : Bytes} {ms : List (Bytes × Json Nat)}, Pairs lax t ms → ms.length ≤ t.length
  | _, _, .nil => by simp
  | _, _, .cons h _ h' => by
    have := text_length_pos h
    have := pairs_length h'
    simp
    omega

mutual
theorem item_read (m : Mach) (ex : Bool) {t : Bytes} {v : Json Nat} (h : Item true t v) (hr : Room m t.length) :
    ∃ c t', t = c :: t' ∧ c ≠ 0xFF ∧ ∀ fuel r, 3 * t.length ≤ fuel →
      cborV m ex fuel (some c) (t' ++ r) = .ok (events v, r) := by
  match h with
  | .uint h =>
    obtain ⟨c, t', rfl, hc, e⟩ := head_uint m ex h
    refine ⟨c, t', rfl, hc, fun fuel r hf => ?_⟩
    simp only [List.length_cons] at hf
    obtain ⟨fuel, rfl⟩ : ∃ f, fuel = f + 1 := ⟨fuel - 1, by omega⟩
    exact e fuel r
  | .neg h hn =>
    obtain ⟨c, t', rfl, hc, hl, e⟩ := head_neg m ex h
    refine ⟨c, t', rfl, hc, fun fuel r hf => ?_⟩
    simp only [List.length_cons] at hf
    obtain ⟨fuel, rfl⟩ : ∃ f, fuel = f + 1 := ⟨fuel - 1, by omega⟩
    rw [e fuel r, events]
    rcases toSigned_big hl with ⟨_, h2⟩ | ⟨h1, _⟩
    · rw [h2]
    · omega
  | .laxNeg _ h hn =>
    obtain ⟨c, t', rfl, hc, hl, e⟩ := head_neg m ex h
    refine ⟨c, t', rfl, hc, fun fuel r hf => ?_⟩
    simp only [List.length_cons] at hf
    obtain ⟨fuel, rfl⟩ : ∃ f, fuel = f + 1 := ⟨fuel - 1, by omega⟩
    rw [e fuel r, events]
    rcases toSigned_big hl with ⟨h1, _⟩ | ⟨_, h2⟩
    · omega
    · rw [h2]
  | .str h =>
    obtain ⟨c, t', rfl, hc, e⟩ := text_read m ex h hr
    refine ⟨c, t', rfl, by omega, fun fuel r hf => ?_⟩
    simp only [List.length_cons] at hf
    obtain ⟨fuel, rfl⟩ : ∃ f, fuel = f + 1 := ⟨fuel - 1, by omega⟩
    rw [cborV]
    branch
    rw [e _ r (by lens)]
    rfl
  | .arr (t := t) (ts := ts) (vs := vs) h h' =>
    obtain ⟨c, t', rfl, hc, e⟩ := head_arr m ex h
    refine ⟨c, t' ++ ts, rfl, hc, fun fuel r hf => ?_⟩
    simp only [List.length_append, List.length_cons] at hf
    obtain ⟨fuel, rfl⟩ : ∃ f, fuel = f + 1 + 1 := ⟨fuel - 2, by omega⟩
    have hl := items_length h'
    have h1 := hr.arr
    have h2 := hr.size
    simp only [List.length_append, List.length_cons] at h1 h2
    rw [List.append_assoc, e, cborArr, if_pos (by rw [noSize]; omega), if_neg (by omega),
      items_read m ex h' (hr.mono (by lens)) fuel r (by omega)]
    rfl
  | .arrMarked (ts := ts) h' =>
    refine ⟨0x9F, ts ++ [0xFF], rfl, by omega, fun fuel r hf => ?_⟩
    simp only [List.length_append, List.length_cons] at hf
    obtain ⟨fuel, rfl⟩ : ∃ f, fuel = f + 1 + 1 := ⟨fuel - 2, by omega⟩
    rw [cborV]
    branch
    rw [List.append_assoc, cborArr, if_neg (by simp), List.singleton_append,
      items_read_until m ex h' (hr.mono (by lens)) fuel r (by omega)]
    rfl
  | .laxArr (t := t) (ts := ts) (vs := vs) _ h h' =>
    obtain ⟨c, t', rfl, hc, e⟩ := head_arr m ex h
    refine ⟨c, t' ++ (ts ++ [0xFF]), rfl, hc, fun fuel r hf => ?_⟩
    simp only [List.length_append, List.length_cons] at hf
    obtain ⟨fuel, rfl⟩ : ∃ f, fuel = f + 1 + 1 := ⟨fuel - 2, by omega⟩
    rw [List.append_assoc, e, List.append_assoc, cborArr, if_neg (by rw [noSize]; simp), List.singleton_append,
      items_read_until m ex h' (hr.mono (by lens)) fuel r (by omega)]
    rfl
  | .obj (t := t) (ts := ts) (ms := ms) h h' =>
    obtain ⟨c, t', rfl, hc, e⟩ := head_obj m ex h
    refine ⟨c, t' ++ ts, rfl, hc, fun fuel r hf => ?_⟩
    simp only [List.length_append, List.length_cons] at hf
    obtain ⟨fuel, rfl⟩ : ∃ f, fuel = f + 1 + 1 := ⟨fuel - 2, by omega⟩
    have hl := pairs_length h'
    have h1 := hr.obj
    have h2 := hr.size
    simp only [List.length_append, List.length_cons] at h1 h2
    rw [List.append_assoc, e, cborObj, if_pos (by rw [noSize]; omega), if_neg (by omega),
      pairs_read m ex h' (hr.mono (by lens)) fuel r (by omega)]
    rfl
  | .objMarked (ts := ts) h' =>
    refine ⟨0xBF, ts ++ [0xFF], rfl, by omega, fun fuel r hf => ?_⟩
    simp only [List.length_append, List.length_cons] at hf
    obtain ⟨fuel, rfl⟩ : ∃ f, fuel = f + 1 + 1 := ⟨fuel - 2, by omega⟩
    rw [cborV]
    branch
    rw [List.append_assoc, cborObj, if_neg (by simp), List.singleton_append,
      pairs_read_until m ex h' (hr.mono (by lens)) fuel r (by omega)]
    rfl
  | .laxObj (t := t) (ts := ts) (ms := ms) _ h h' =>
    obtain ⟨c, t', rfl, hc, e⟩ := head_obj m ex h
    refine ⟨c, t' ++ (ts ++ [0xFF]), rfl, hc, fun fuel r hf => ?_⟩
    simp only [List.length_append, List.length_cons] at hf
    obtain ⟨fuel, rfl⟩ : ∃ f, fuel = f + 1 + 1 := ⟨fuel - 2, by omega⟩
    rw [List.append_assoc, e, List.append_assoc, cborObj, if_neg (by rw [noSize]; simp), List.singleton_append,
      pairs_read_until m ex h' (hr.mono (by lens)) fuel r (by omega)]
    rfl
  | .false =>
    refine ⟨_, [], rfl, by omega, fun fuel r hf => ?_⟩
    obtain ⟨fuel, rfl⟩ : ∃ f, fuel = f + 1 := ⟨fuel - 1, by simp at hf; omega⟩
    rw [cborV]
    branch
    rfl
  | .true =>
    refine ⟨_, [], rfl, by omega, fun fuel r hf => ?_⟩
    obtain ⟨fuel, rfl⟩ : ∃ f, fuel = f + 1 := ⟨fuel - 1, by simp at hf; omega⟩
    rw [cborV]
    branch
    rfl
  | .null =>
    refine ⟨_, [], rfl, by omega, fun fuel r hf => ?_⟩
    obtain ⟨fuel, rfl⟩ : ∃ f, fuel = f + 1 := ⟨fuel - 1, by simp at hf; omega⟩
    rw [cborV]
    branch
    rfl
  | .half (a := a) (b := b) _ _ =>
    refine ⟨_, [a, b], rfl, by omega, fun fuel r hf => ?_⟩
    obtain ⟨fuel, rfl⟩ : ∃ f, fuel = f + 1 := ⟨fuel - 1, by simp at hf; omega⟩
    rw [cborV]
    branch
    simp only [List.cons_append, List.nil_append, getHalf, Rd.ok_bind, events]
    rw [show a * 2 ^ 8 + b = 256 * a + b by omega]
  | .single (bs := bs) hl _ =>
    refine ⟨_, bs, rfl, by omega, fun fuel r hf => ?_⟩
    obtain ⟨fuel, rfl⟩ : ∃ f, fuel = f + 1 := ⟨fuel - 1, by simp at hf; omega⟩
    rw [cborV]
    branch
    rw [getNumber_append m hl]
    rfl
  | .double (bs := bs) hl _ =>
    refine ⟨_, bs, rfl, by omega, fun fuel r hf => ?_⟩
    obtain ⟨fuel, rfl⟩ : ∃ f, fuel = f + 1 := ⟨fuel - 1, by simp at hf; omega⟩
    rw [cborV]
    branch
    rw [getNumber_append m hl]
    rfl
theorem items_read (m : Mach) (ex : Bool) {t : Bytes} {vs : List (Json Nat)} (h : Items true t vs)
    (hr : Room m t.length) : ∀ fuel r, 3 * t.length + 1 ≤ fuel →
      cborElems m ex fuel vs.length (t ++ r) = .ok (eventsL vs, r) := by
  match h with
  | .nil => intro fuel r _; cases fuel <;> simp [cborElems, eventsL]
  | .cons h h' =>
    intro fuel r hf
    obtain ⟨c, t', rfl, hc, e⟩ := item_read m ex h (hr.mono (by lens))
    simp only [List.length_append, List.length_cons] at hf
    obtain ⟨fuel, rfl⟩ : ∃ f, fuel = f + 1 := ⟨fuel - 1, by omega⟩
    rw [List.append_assoc, List.cons_append, List.length_cons, cborElems, e fuel _ (by lens), Rd.ok_bind,
      items_read m ex h' (hr.mono (by lens)) fuel r (by omega)]
    rfl
theorem items_read_until (m : Mach) (ex : Bool) {t : Bytes} {vs : List (Json Nat)} (h : Items true t vs)
    (hr : Room m t.length) : ∀ fuel r, 3 * t.length + 1 ≤ fuel →
      cborElemsUntil m ex fuel (t ++ 0xFF :: r) = .ok (eventsL vs, r) := by
  match h with
  | .nil =>
    intro fuel r hf
    obtain ⟨fuel, rfl⟩ : ∃ f, fuel = f + 1 := ⟨fuel - 1, by omega⟩
    rw [List.nil_append, cborElemsUntil, if_pos rfl, eventsL]
  | .cons h h' =>
    intro fuel r hf
    obtain ⟨c, t', rfl, hc, e⟩ := item_read m ex h (hr.mono (by lens))
    simp only [List.length_append, List.length_cons] at hf
    obtain ⟨fuel, rfl⟩ : ∃ f, fuel = f + 1 := ⟨fuel - 1, by omega⟩
    rw [List.append_assoc, List.cons_append, cborElemsUntil, if_neg hc, e fuel _ (by lens), Rd.ok_bind,
      items_read_until m ex h' (hr.mono (by lens)) fuel r (by omega)]
    rfl
theorem pairs_read (m : Mach) (ex : Bool) {t : Bytes} {ms : List (Bytes × Json Nat)} (h : Pairs true t ms)
    (hr : Room m t.length) : ∀ fuel r, 3 * t.length + 1 ≤ fuel →
      cborMembers m ex fuel ms.length (t ++ r) = .ok (eventsM ms, r) := by
  match h with
  | .nil => intro fuel r _; cases fuel <;> simp [cborMembers, eventsM]
  | .cons hk h h' =>
    intro fuel r hf
    obtain ⟨d, k', rfl, hd, ek⟩ := text_read m ex hk (hr.mono (by lens))
    obtain ⟨c, t', rfl, hc, e⟩ := item_read m ex h (hr.mono (by lens))
    simp only [List.length_append, List.length_cons] at hf
    obtain ⟨fuel, rfl⟩ : ∃ f, fuel = f + 1 := ⟨fuel - 1, by omega⟩
    rw [List.append_assoc, List.cons_append, List.length_cons, cborMembers, ek _ _ (by lens), Rd.ok_bind]
    simp only [List.cons_append, List.append_assoc, List.head?_cons, List.tail_cons]
    rw [e fuel _ (by lens), Rd.ok_bind, pairs_read m ex h' (hr.mono (by lens)) fuel r (by omega)]
    rfl
theorem pairs_read_until (m : Mach) (ex : Bool) {t : Bytes} {ms : List (Bytes × Json Nat)} (h : Pairs true t ms)
    (hr : Room m t.length) : ∀ fuel r, 3 * t.length + 1 ≤ fuel →
      cborMembersUntil m ex fuel (t ++ 0xFF :: r) = .ok (eventsM ms, r) := by
  match h with
  | .nil =>
    intro fuel r hf
    obtain ⟨fuel, rfl⟩ : ∃ f, fuel = f + 1 := ⟨fuel - 1, by omega⟩
    rw [List.nil_append, cborMembersUntil, if_pos rfl, eventsM]
  | .cons hk h h' =>
    intro fuel r hf
    obtain ⟨d, k', rfl, hd, ek⟩ := text_read m ex hk (hr.mono (by lens))
    obtain ⟨c, t', rfl, hc, e⟩ := item_read m ex h (hr.mono (by lens))
    simp only [List.length_append, List.length_cons] at hf
    obtain ⟨fuel, rfl⟩ : ∃ f, fuel = f + 1 := ⟨fuel - 1, by omega⟩
    rw [List.append_assoc, List.cons_append, cborMembersUntil, if_neg (by omega), ek _ _ (by lens), Rd.ok_bind]
    simp only [List.cons_append, List.append_assoc, List.head?_cons, List.tail_cons]
    rw [e fuel _ (by lens), Rd.ok_bind, pairs_read_until m ex h' (hr.mono (by lens)) fuel r (by omega)]
    rfl
end

end Verif.Json
