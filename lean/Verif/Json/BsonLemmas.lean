import Verif.Json.BsonModel
import Verif.Json.MsgRun
import Verif.Json.IntLemmas
import Verif.Json.PointerLemmas

/-!
# BSON, as its specification defines it, and the reader of the code
-/

namespace Verif.Json

namespace Spec.Bson

/-- the number whose bytes are given, the lowest first -/
def little (bs : Bytes) : Nat := big bs.reverse

/-- the signed number with the bytes given, the lowest first -/
def IsInt (w : Nat) (bs : Bytes) (i : Int) : Prop :=
  bs.length = w ∧ (∀ b ∈ bs, b < 256) ∧ -2 ^ (8 * w - 1) ≤ i ∧ i < 2 ^ (8 * w - 1) ∧ i % 2 ^ (8 * w) = little bs

mutual
/-- a document: its bytes, and the names and values.  `lax` adds what the code takes for a document beyond the
specification: sizes that are not those of the document, names that are not UTF-8. -/
inductive Doc (lax : Bool) : Bytes → List (Bytes × Json Nat) → Prop
  | mk {sz t : Bytes} {n : Int} {ms : List (Bytes × Json Nat)} : IsInt 4 sz n →
      (lax = true ∨ n = (4 + t.length + 1 : Nat)) → Elems lax t ms → Doc lax (sz ++ (t ++ [0])) ms
/-- the elements of a document -/
inductive Elems (lax : Bool) : Bytes → List (Bytes × Json Nat) → Prop
  | nil : Elems lax [] []
  | cons {c : Nat} {k t ts : Bytes} {v : Json Nat} {ms : List (Bytes × Json Nat)} : 0 ∉ k → (∀ b ∈ k, b < 256) →
      (lax = true ∨ Utf8 k) → Elem lax c t v → Elems lax ts ms → Elems lax (c :: (k ++ 0 :: (t ++ ts))) ((k, v) :: ms)
/-- the type of an element, the bytes after the name, and the value.  With `lax`, the text of a string need not be UTF-8 and
can end with any byte, the names in an array can be any, and a truth value any byte. -/
inductive Elem (lax : Bool) : Nat → Bytes → Json Nat → Prop
  | double {bs : Bytes} : bs.length = 8 → (∀ b ∈ bs, b < 256) → Elem lax 0x01 bs (.float (little bs))
  | str {sz s : Bytes} {e : Nat} : IsInt 4 sz (s.length + 1 : Nat) → (∀ b ∈ s, b < 256) → e < 256 →
      (lax = true ∨ (e = 0 ∧ Utf8 s)) → Elem lax 0x02 (sz ++ (s ++ [e])) (.str s)
  | obj {t : Bytes} {ms : List (Bytes × Json Nat)} : Doc lax t ms → Elem lax 0x03 t (.obj ms)
  | arr {t : Bytes} {ms : List (Bytes × Json Nat)} {vs : List (Json Nat)} : Doc lax t ms → vs = ms.map (·.2) →
      (lax = true ∨ ms.map (·.1) = (List.range ms.length).map digits) → Elem lax 0x04 t (.arr vs)
  | bool {b : Nat} : b < 256 → (lax = true ∨ b ≤ 1) → Elem lax 0x08 [b] (.bool (b ≠ 0))
  | null : Elem lax 0x0A [] .null
  | int32 {bs : Bytes} {i : Int} : IsInt 4 bs i → Elem lax 0x10 bs (.int i)
  | int64 {bs : Bytes} {i : Int} : IsInt 8 bs i → Elem lax 0x12 bs (.int i)
end

end Spec.Bson

open Spec

/-! ## Numbers -/

theorem memValue_little (l : Bool) (bs : Bytes) :
    memValue l (if l ≠ true then bs.reverse else bs) = Bson.little bs := by
  cases l with
  | false => have := memValue_eq false bs.reverse; simpa [Bson.little] using this
  | true => have := memValue_eq true bs.reverse; simpa [Bson.little] using this

theorem littleNumber_append (m : Mach) {bs : Bytes} {w : Nat} (hw : bs.length = w) (s : Bytes) :
    getNumber m true w (bs ++ s) = .ok (Bson.little bs, s) := by
  subst hw
  rw [getNumber, if_pos (by simp), List.take_left, List.drop_left, memValue_little]

theorem littleNumber_cases (m : Mach) (w : Nat) (s : Bytes) :
    (∃ bs r, s = bs ++ r ∧ bs.length = w ∧ getNumber m true w s = .ok (Bson.little bs, r)) ∨
      (s.length < w ∧ getNumber m true w s = .fail 110) := by
  by_cases hw : w ≤ s.length
  · refine .inl ⟨s.take w, s.drop w, (List.take_append_drop w s).symm, by simp [hw], ?_⟩
    rw [getNumber, if_pos hw, memValue_little]
  · exact .inr ⟨by omega, by rw [getNumber, if_neg hw]⟩

theorem littleNumber_ok {m : Mach} {w n : Nat} {s r : Bytes} (h : getNumber m true w s = .ok (n, r)) :
    ∃ bs, s = bs ++ r ∧ bs.length = w ∧ n = Bson.little bs := by
  rcases littleNumber_cases m w s with ⟨bs, r', rfl, hl, e⟩ | ⟨_, e⟩
  · rw [e] at h; cases h; exact ⟨bs, rfl, hl, rfl⟩
  · rw [e] at h; cases h

theorem little_lt {bs : Bytes} (h : ∀ b ∈ bs, b < 256) : Bson.little bs < 256 ^ bs.length := by
  have := big_lt (bs := bs.reverse) fun b hb => h b (List.mem_reverse.mp hb)
  rwa [List.length_reverse] at this

theorem isInt_asSigned {k w : Nat} {bs : Bytes} (hk : k < 4) (hw : w = 2 ^ k) (hl : bs.length = w)
    (hb : ∀ b ∈ bs, b < 256) : Bson.IsInt w bs (asSigned w (Bson.little bs)) := by
  have hlt := little_lt hb
  rw [hl] at hlt
  subst hw
  obtain ⟨h1, h2, h3⟩ := asSigned_spec hk hlt
  exact ⟨hl, hb, h1, h2, h3⟩

theorem isInt_only {k w : Nat} {bs : Bytes} {i : Int} (hk : k < 4) (hw : w = 2 ^ k) (h : Bson.IsInt w bs i) :
    asSigned w (Bson.little bs) = i := by
  subst hw
  exact asSigned_only hk h.2.2.1 h.2.2.2.1 h.2.2.2.2

/-! ## What is read is a document -/

theorem bsonCstr_sound (m : Mach) : ∀ (n : Nat) (s k r : Bytes), bsonCstr m n s = .ok (k, r) → s = k ++ 0 :: r ∧ 0 ∉ k
  | _, [], _, _, h => by simp [bsonCstr] at h
  | n, c :: s, k, r, h => by
    rw [bsonCstr] at h
    by_cases hc : c = 0
    · rw [if_pos hc] at h
      cases h
      simp [hc]
    · rw [if_neg hc] at h
      rcases ite_cases h with ⟨_, h⟩ | ⟨_, h⟩
      · obtain ⟨⟨k', r'⟩, h1, h2⟩ := Rd.bind_ok_iff.1 h
        cases h2
        obtain ⟨rfl, h3⟩ := bsonCstr_sound m _ _ _ _ h1
        refine ⟨rfl, ?_⟩
        simp only [List.mem_cons, not_or]
        exact ⟨fun h => hc h.symm, h3⟩
      · cases h

theorem bsonString_sound {m : Mach} {ex : Bool} {len : Int} {s t r : Bytes} (h : bsonString m ex len s = .ok (t, r)) :
    ∃ e, s = t ++ e :: r ∧ len = (t.length + 1 : Nat) := by
  rw [bsonString] at h
  rcases ite_cases h with ⟨_, h⟩ | ⟨hl, h⟩
  · cases h
  · obtain ⟨⟨t', r'⟩, h1, h2⟩ := Rd.bind_ok_iff.1 h
    obtain ⟨rfl, h3⟩ := takeString_ok h1
    match r', h2 with
    | [], h2 => cases h2
    | e :: r', h2 =>
      cases h2
      refine ⟨e, rfl, ?_⟩
      simp only at h3 ⊢
      omega

/-- the calls of the builder for the elements -/
def bsonEvents (isArr : Bool) (ms : List (Bytes × Json Nat)) : List (Event Nat) :=
  if isArr then eventsL (ms.map (·.2)) else eventsM ms

/-- the value of a document -/
def bsonJson (isArr : Bool) (ms : List (Bytes × Json Nat)) : Json Nat :=
  if isArr then .arr (ms.map (·.2)) else .obj ms

mutual
theorem bsonDoc_sound (m : Mach) (ex : Bool) : ∀ (fuel : Nat) (isArr : Bool) (s r : Bytes) (evs : List (Event Nat)),
    (∀ b ∈ s, b < 256) → bsonDoc m ex fuel isArr s = .ok (evs, r) →
    ∃ t ms, s = t ++ r ∧ Bson.Doc true t ms ∧ evs = events (bsonJson isArr ms)
  | 0, _, _, _, _, _, h => by simp [bsonDoc] at h
  | fuel + 1, isArr, s, r, evs, hs, h => by
    rw [bsonDoc] at h
    obtain ⟨⟨n, r1⟩, h1, h2⟩ := Rd.bind_ok_iff.1 h
    obtain ⟨⟨e2, r2⟩, h3, h4⟩ := Rd.bind_ok_iff.1 h2
    obtain ⟨bs, rfl, hl, rfl⟩ := littleNumber_ok h1
    obtain ⟨t, ms, e, ht, rfl⟩ := bsonElems_sound m ex fuel isArr r1 r2 e2
      (fun b hb => hs b (List.mem_append_right _ hb)) h3
    have hd := Bson.Doc.mk (lax := true) (isInt_asSigned (k := 2) (w := 4) (by decide) (by decide) hl
      fun b hb => hs b (List.mem_append_left _ hb)) (.inl rfl) ht
    cases isArr with
    | true =>
      cases h4
      exact ⟨_, ms, by rw [e]; simp, hd, by simp [bsonJson, bsonEvents, events]⟩
    | false =>
      cases h4
      exact ⟨_, ms, by rw [e]; simp, hd, by simp [bsonJson, bsonEvents, events]⟩
theorem bsonElems_sound (m : Mach) (ex : Bool) : ∀ (fuel : Nat) (isArr : Bool) (s r : Bytes) (evs : List (Event Nat)),
    (∀ b ∈ s, b < 256) → bsonElems m ex fuel isArr s = .ok (evs, r) →
    ∃ t ms, s = t ++ 0 :: r ∧ Bson.Elems true t ms ∧ evs = bsonEvents isArr ms
  | fuel, _, [], _, _, _, h => by cases fuel <;> simp [bsonElems] at h
  | 0, _, _ :: _, _, _, _, h => by simp [bsonElems] at h
  | fuel + 1, isArr, c :: s, r, evs, hs, h => by
    rw [bsonElems] at h
    rcases ite_cases h with ⟨hc, h⟩ | ⟨hc, h⟩
    · cases h
      exact ⟨[], [], by simp [hc], .nil, by simp [bsonEvents, eventsL, eventsM]⟩
    · obtain ⟨⟨k, r0⟩, h0, h⟩ := Rd.bind_ok_iff.1 h
      obtain ⟨⟨e1, r1⟩, h1, h⟩ := Rd.bind_ok_iff.1 h
      obtain ⟨⟨e2, r2⟩, h3, h4⟩ := Rd.bind_ok_iff.1 h
      obtain ⟨rfl, hk⟩ := bsonCstr_sound m _ _ _ _ h0
      have hs0 : ∀ b ∈ r0, b < 256 := fun b hb => hs b (by simp [hb])
      have hr1 : r1 ≠ [] := by
        rintro rfl
        cases fuel <;> simp [bsonElems] at h3
      obtain ⟨t, v, e, ht, rfl⟩ := bsonValue_sound m ex fuel c r0 r1 e1 hs0 hr1 h1
      have hs1 : ∀ b ∈ r1, b < 256 := fun b hb => hs0 b (by rw [e]; exact List.mem_append_right _ hb)
      obtain ⟨ts, ms, e', hts, rfl⟩ := bsonElems_sound m ex fuel isArr r1 r2 e2 hs1 h3
      have hd := Bson.Elems.cons (lax := true) hk (fun b hb => hs b (by simp [hb])) (.inl rfl) ht hts
      cases isArr with
      | true =>
        cases h4
        exact ⟨_, (k, v) :: ms, by rw [e, e']; simp, hd, by simp [bsonEvents, eventsL]⟩
      | false =>
        cases h4
        exact ⟨_, (k, v) :: ms, by rw [e, e']; simp, hd, by simp [bsonEvents, eventsM]⟩
theorem bsonValue_sound (m : Mach) (ex : Bool) : ∀ (fuel c : Nat) (s r : Bytes) (evs : List (Event Nat)),
    (∀ b ∈ s, b < 256) → r ≠ [] → bsonValue m ex fuel c s = .ok (evs, r) →
    ∃ t v, s = t ++ r ∧ Bson.Elem true c t v ∧ evs = events v
  | 0, _, _, _, _, _, _, h => by simp [bsonValue] at h
  | fuel + 1, c, s, r, evs, hs, hr, h => by
    rw [bsonValue] at h
    rcases ite_cases h with ⟨rfl, h⟩ | ⟨_, h⟩
    · obtain ⟨⟨n, r1⟩, h1, h2⟩ := Rd.bind_ok_iff.1 h
      cases h2
      obtain ⟨bs, rfl, hl, rfl⟩ := littleNumber_ok h1
      exact ⟨bs, _, rfl, .double hl fun b hb => hs b (by simp [hb]), rfl⟩
    rcases ite_cases h with ⟨rfl, h⟩ | ⟨_, h⟩
    · obtain ⟨⟨n, r1⟩, h1, h⟩ := Rd.bind_ok_iff.1 h
      obtain ⟨⟨t, r2⟩, h2, h3⟩ := Rd.bind_ok_iff.1 h
      cases h3
      obtain ⟨bs, rfl, hl, rfl⟩ := littleNumber_ok h1
      obtain ⟨e, h4, h5⟩ := bsonString_sound h2
      simp only at h4 h5
      subst h4
      refine ⟨bs ++ (t ++ [e]), .str t, by simp, .str ?_ (fun b hb => hs b (by simp [hb])) (hs e (by simp)) (.inl rfl), rfl⟩
      rw [← h5]
      exact isInt_asSigned (k := 2) (by decide) (by decide) hl fun b hb => hs b (by simp [hb])
    rcases ite_cases h with ⟨rfl, h⟩ | ⟨_, h⟩
    · obtain ⟨t, ms, e, hd, h1⟩ := bsonDoc_sound m ex fuel false s r evs hs h
      exact ⟨t, _, e, .obj hd, h1⟩
    rcases ite_cases h with ⟨rfl, h⟩ | ⟨_, h⟩
    · obtain ⟨t, ms, e, hd, h1⟩ := bsonDoc_sound m ex fuel true s r evs hs h
      exact ⟨t, _, e, .arr hd rfl (.inl rfl), h1⟩
    rcases ite_cases h with ⟨rfl, h⟩ | ⟨_, h⟩
    · cases h
      match s, hr with
      | [], hr => exact absurd rfl hr
      | b :: s, _ => exact ⟨[b], _, rfl, .bool (hs b (by simp)) (.inl rfl), by simp [events]⟩
    rcases ite_cases h with ⟨rfl, h⟩ | ⟨_, h⟩
    · cases h
      exact ⟨[], _, rfl, .null, rfl⟩
    rcases ite_cases h with ⟨rfl, h⟩ | ⟨_, h⟩
    · obtain ⟨⟨n, r1⟩, h1, h2⟩ := Rd.bind_ok_iff.1 h
      cases h2
      obtain ⟨bs, rfl, hl, rfl⟩ := littleNumber_ok h1
      exact ⟨bs, _, rfl, .int32 (isInt_asSigned (k := 2) (by decide) (by decide) hl fun b hb => hs b (by simp [hb])), rfl⟩
    rcases ite_cases h with ⟨rfl, h⟩ | ⟨_, h⟩
    · obtain ⟨⟨n, r1⟩, h1, h2⟩ := Rd.bind_ok_iff.1 h
      cases h2
      obtain ⟨bs, rfl, hl, rfl⟩ := littleNumber_ok h1
      exact ⟨bs, _, rfl, .int64 (isInt_asSigned (k := 3) (by decide) (by decide) hl fun b hb => hs b (by simp [hb])), rfl⟩
    cases h
end

end Verif.Json
