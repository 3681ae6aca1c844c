import Verif.Json.CborRun
import Verif.Json.CborWrite
import Verif.Json.PropsCompare
import Mathlib.Data.Nat.Basic

/-!
# Properties of the CBOR format
-/

namespace Verif.Json
open Spec Spec.Cbor

/-! ## From the reader to `from_cbor` -/

mutual
theorem Spec.Cbor.Text.relax {t s : Bytes} : Text false t s → Text true t s
  | .whole h _ => .whole h (.inl rfl)
  | .pieces h => .pieces h.relax
theorem Spec.Cbor.Pieces.relax {t s : Bytes} : Pieces false t s → Pieces true t s
  | .nil => .nil
  | .cons h _ h' => .cons h.relax (.inl rfl) h'.relax
end

mutual
theorem Spec.Cbor.Item.relax {t : Bytes} {v : Json Nat} : Item false t v → Item true t v
  | .uint h => .uint h
  | .neg h h' => .neg h h'
  | .str h => .str h.relax
  | .arr h h' => .arr h h'.relax
  | .arrMarked h => .arrMarked h.relax
  | .obj h h' => .obj h h'.relax
  | .objMarked h => .objMarked h.relax
  | .false => .false
  | .true => .true
  | .null => .null
  | .half h h' => .half h h'
  | .single h h' => .single h h'
  | .double h h' => .double h h'
theorem Spec.Cbor.Items.relax {t : Bytes} {vs : List (Json Nat)} : Items false t vs → Items true t vs
  | .nil => .nil
  | .cons h h' => .cons h.relax h'.relax
theorem Spec.Cbor.Pairs.relax {t : Bytes} {ms : List (Bytes × Json Nat)} : Pairs false t ms → Pairs true t ms
  | .nil => .nil
  | .cons h h' h'' => .cons h.relax h'.relax h''.relax
end

theorem fromCbor_item (m : Mach) (ex : Bool) {t r : Bytes} {w : Json Nat} (h : Item true t w) (hr : Room m t.length) :
    cborV m ex (3 * (t ++ r).length + 3) (t ++ r).head? (t ++ r).tail = .ok (events w, r) := by
  obtain ⟨c, t', rfl, _, e⟩ := item_read m ex h hr
  exact e _ r (by simp; omega)

theorem finishRead_ok (strict ex : Bool) (w : Json Nat) (r : Bytes) :
    finishRead strict ex (.ok (events w, r)) =
      if strict ∧ r ≠ [] then if ex then .throws "parse_error.110" else .ok (none, r.tail)
      else .ok (some (tidy w), r) := by
  obtain ⟨d, hd, hr⟩ := build_events w (.null : Json Nat)
  simp only [finishRead, hd, hr]

theorem fromCbor_some {m : Mach} {strict ex : Bool} {s r : Bytes} {v : Json Nat} (hs : ∀ b ∈ s, b < 256)
    (h : fromCbor m strict ex s = .ok (some v, r)) :
    ∃ t w, s = t ++ r ∧ Item true t w ∧ v = tidy w ∧ (strict = true → r = []) := by
  rw [fromCbor] at h
  match s, hs, h with
  | [], _, h => cases ex <;> simp [cborV, finishRead] at h
  | c :: s, hs, h =>
    simp only [List.head?_cons, List.tail_cons] at h
    cases e : cborV m ex (3 * (c :: s).length + 3) (some c) s with
    | running => rw [e] at h; cases h
    | threw k => rw [e] at h; cases h
    | fail id => rw [e, finishRead] at h; cases ex <;> simp at h
    | ok p =>
      obtain ⟨evs, r'⟩ := p
      obtain ⟨t, w, e', hi, rfl⟩ := cborV_sound m ex _ c s r' evs (fun b hb => hs b (List.mem_cons_of_mem _ hb)) e
      rw [e, finishRead_ok] at h
      by_cases hc : strict = true ∧ r' ≠ []
      · rw [if_pos hc] at h; cases ex <;> simp at h
      · rw [if_neg hc] at h
        cases h
        refine ⟨t, w, e', hi, rfl, fun hs => ?_⟩
        by_cases hr : r = []
        · exact hr
        · exact absurd ⟨hs, hr⟩ hc

/-! ## Reading -/

/-- **C125** (what holds) The value read from a text of bytes that is read to its end: there is one exactly if the
text is an item in the wide sense (`Item true`: the items of RFC 7049 that have a counterpart in JSON,
and the deviations listed there), and it is the value of that item, of repeated names the last.  Whether
exceptions are allowed makes no difference.  `Room`: `max_size()` of arrays, objects and strings is at least the length of
the text. -/
theorem C125_reads_iff (m : Mach) (ex : Bool) {s : Bytes} (hs : ∀ b ∈ s, b < 256) (hr : Room m s.length) (v : Json Nat) :
    fromCbor m true ex s = .ok (some v, []) ↔ ∃ w, Item true s w ∧ v = tidy w := by
  constructor
  · intro h
    obtain ⟨t, w, e, hi, hv, _⟩ := fromCbor_some hs h
    rw [List.append_nil] at e
    exact ⟨w, e ▸ hi, hv⟩
  · rintro ⟨w, hi, rfl⟩
    have := fromCbor_item m ex (r := []) hi hr
    rw [List.append_nil] at this
    rw [fromCbor, this, finishRead_ok]
    simp

/-- **C125** (what holds) Without `strict`, the bytes after the item are left in the input, whatever they are. -/
theorem C125_rest_iff (m : Mach) (ex : Bool) {s : Bytes} (hs : ∀ b ∈ s, b < 256) (hr : Room m s.length) (v : Json Nat)
    (r : Bytes) :
    fromCbor m false ex s = .ok (some v, r) ↔ ∃ t w, s = t ++ r ∧ Item true t w ∧ v = tidy w := by
  constructor
  · intro h
    obtain ⟨t, w, e, hi, hv, _⟩ := fromCbor_some hs h
    exact ⟨t, w, e, hi, hv⟩
  · rintro ⟨t, w, rfl, hi, rfl⟩
    rw [fromCbor, fromCbor_item m ex hi (hr.mono (by simp)), finishRead_ok]
    simp

/-- a machine with room -/
def exMach (little : Bool) : Mach := ⟨little, 2 ^ 60, 2 ^ 60, 2 ^ 62⟩

theorem exMach_room (little : Bool) {L : Nat} (h : L ≤ 2 ^ 60) : Room (exMach little) L :=
  ⟨h, h, by simp only [exMach]; omega, by omega⟩

/-- `{"a": [1, -2]}`, with an array of indefinite length, and one byte more -/
example : fromCbor (exMach true) false true [0xA1, 0x61, 0x61, 0x9F, 0x01, 0x21, 0xFF, 0x00] =
    .ok (some (.obj [([0x61], .arr [.uint 1, .int (-2)])]), [0x00]) := by
  rw [C125_rest_iff _ _ (by decide) (exMach_room _ (by decide))]
  refine ⟨[0xA1, 0x61, 0x61, 0x9F, 0x01, 0x21, 0xFF], .obj [([0x61], .arr [.uint 1, .int (-2)])], rfl, ?_, rfl⟩
  exact Item.obj (t := [0xA1]) (ms := [_]) (.tiny (by decide))
    (Pairs.cons (k := [0x61, 0x61]) (t := [0x9F, 0x01, 0x21, 0xFF]) (ts := [])
      (Text.whole (t := [0x61]) (s := [0x61]) (.tiny (by decide)) (.inl rfl))
      (Item.arrMarked (ts := [0x01, 0x21]) (Items.cons (t := [0x01]) (ts := [0x21]) (.uint (Head.tiny (major := 0) (by decide)))
        (Items.cons (t := [0x21]) (ts := []) (Item.neg (n := 1) (Head.tiny (major := 1) (by decide)) (by decide)) .nil)))
      .nil)

/-- **C125** (what holds) Every item of RFC 7049 that has a counterpart in JSON is read as its value: lengths may stand in
1, 2, 4 or 8 bytes, or be indefinite; strings may be in pieces. -/
theorem C125_standard (m : Mach) (ex strict : Bool) {t : Bytes} {w : Json Nat} (h : Item false t w) (hr : Room m t.length) :
    fromCbor m strict ex t = .ok (some (tidy w), []) := by
  have := fromCbor_item m ex (r := []) h.relax hr
  rw [List.append_nil] at this
  rw [fromCbor, this, finishRead_ok]
  simp

/-- `"ab"` in two pieces, the first with its length in two bytes -/
example : fromCbor (exMach false) true true [0x7F, 0x79, 0x00, 0x01, 0x61, 0x61, 0x62, 0xFF] =
    .ok (some (.str [0x61, 0x62]), []) := by
  refine C125_standard _ _ _ (Item.str (Text.pieces (ts := [0x79, 0x00, 0x01, 0x61, 0x61, 0x62]) (s := [0x61, 0x62]) ?_))
    (exMach_room _ (by decide))
  exact Pieces.cons (t := [0x79, 0x00, 0x01, 0x61]) (s := [0x61])
    (Text.whole (t := [0x79, 0x00, 0x01]) (Head.more (k := 1) (bs := [0x00, 0x01]) (by decide) rfl (by decide))
      (.inr (utf8_ascii (by decide)))) (.inr (by decide))
    (Pieces.cons (t := [0x61, 0x62]) (ts := []) (s := [0x62]) (s' := [])
      (Text.whole (t := [0x61]) (.tiny (by decide)) (.inr (utf8_ascii (by decide)))) (.inr (by decide)) .nil)

/-- **C125** (what holds) With `strict`, anything after the item is an error, `parse_error.110`. -/
theorem C125_trailing (m : Mach) {t r : Bytes} {w : Json Nat} (h : Item true t w) (hr : Room m t.length) (hn : r ≠ []) :
    fromCbor m true true (t ++ r) = .throws "parse_error.110" ∧
    ∃ r', fromCbor m true false (t ++ r) = .ok (none, r') := by
  rw [fromCbor, fromCbor, fromCbor_item m true h hr, fromCbor_item m false h hr, finishRead_ok, finishRead_ok]
  simp [hn]

example : fromCbor (exMach true) true true [0xF6, 0xF6] = .throws "parse_error.110" :=
  (C125_trailing (exMach true) (t := [0xF6]) .null (exMach_room _ (by decide)) (by decide)).1

/-- **C125** (what holds) Of an item no beginning is read as a value: if the input ends too early, the error is
`parse_error.110` – with or without `strict`; without exceptions, the value is discarded. -/
theorem C125_truncated (m : Mach) (strict : Bool) {p q : Bytes} {w : Json Nat} (hs : ∀ b ∈ p ++ q, b < 256)
    (h : Item true (p ++ q) w) (hr : Room m (p ++ q).length) (hq : q ≠ []) :
    fromCbor m strict true p = .throws "parse_error.110" ∧ ∃ r, fromCbor m strict false p = .ok (none, r) := by
  have key : ∀ ex, cborV m ex (3 * p.length + 3) p.head? p.tail = .fail 110 := by
    intro ex
    match p, hs, h, hr with
    | [], _, _, _ => rw [List.head?_nil, cborV]
    | c :: p, hs, h, hr =>
      simp only [List.head?_cons, List.tail_cons]
      have h1 := fromCbor_item m ex (r := []) h hr
      simp only [List.append_nil, List.cons_append, List.head?_cons, List.tail_cons] at h1
      have h2 := cborV_goes m ex q (3 * (c :: p).length + 3) (3 * (c :: (p ++ q)).length + 3) c p (by simp; omega)
      have h3 := cborV_ends m ex _ (3 * (c :: p).length + 3) c p
        (AllBytes.left (t := c :: p) (s := q) fun b hb => hs b hb) (Nat.le_refl _) (by simp; omega)
      rw [h1] at h2
      cases e : cborV m ex (3 * (c :: p).length + 3) (some c) p with
      | running => rw [e] at h3; exact h3.elim
      | threw k => rw [e] at h2; cases h2
      | fail id =>
        rw [e] at h2
        rcases h2 with h2 | h2
        · rw [h2]
        · cases h2
      | ok x =>
        obtain ⟨a, r⟩ := x
        rw [e] at h2
        simp only [Goes, Rd.ok.injEq, Prod.mk.injEq] at h2
        have := congrArg List.length h2.2
        rw [List.length_append] at this
        have : 0 < q.length := List.length_pos_iff.mpr hq
        simp at *
        omega
  rw [fromCbor, fromCbor, key, key]
  exact ⟨rfl, _, rfl⟩

/-- `[1, 2]` without the last byte -/
example : fromCbor (exMach false) false true [0x82, 0x01] = .throws "parse_error.110" := by
  refine (C125_truncated (exMach false) false (p := [0x82, 0x01]) (q := [0x02]) (by decide) (w := .arr [.uint 1, .uint 2]) ?_
    (exMach_room _ (by decide)) (by decide)).1
  exact Item.arr (t := [0x82]) (ts := [0x01, 0x02]) (.tiny (by decide))
    (Items.cons (t := [0x01]) (ts := [0x02]) (.uint (Head.tiny (major := 0) (by decide)))
      (Items.cons (t := [0x02]) (ts := []) (.uint (Head.tiny (major := 0) (by decide))) .nil))

/-- **C125** (what holds) Reading always comes to an end, and to a defined one: a value, or `parse_error` 110, 112 or 113;
or `out_of_range.408` if the input gives a size beyond `max_size()`; or `std::length_error`, which needs a string
beyond `max_size()` that is longer than the input if exceptions are allowed. -/
theorem C125_terminates (m : Mach) (strict ex : Bool) {s : Bytes} (hs : ∀ b ∈ s, b < 256) :
    (∃ v r, fromCbor m strict ex s = .ok (v, r) ∧ (ex = true → v ≠ none)) ∨
    (ex = true ∧ ∃ k ∈ ["parse_error.110", "parse_error.112", "parse_error.113"], fromCbor m strict ex s = .throws k) ∨
    (fromCbor m strict ex s = .throws "out_of_range.408" ∧ (m.maxArr < 2 ^ 64 - 1 ∨ m.maxObj < 2 ^ 64 - 1)) ∨
    (fromCbor m strict ex s = .throws "std::length_error" ∧ m.maxStr < 2 ^ 64 ∧ (ex = true → m.maxStr < s.length)) := by
  have hfail : ∀ id, (id = 110 ∨ id = 112 ∨ id = 113) →
      (∃ v r, finishRead strict ex (.fail id) = .ok (v, r) ∧ (ex = true → v ≠ none)) ∨
      (ex = true ∧ ∃ k ∈ ["parse_error.110", "parse_error.112", "parse_error.113"],
        finishRead strict ex (.fail id) = .throws k) := by
    intro id hid
    cases ex with
    | false => exact .inl ⟨none, [], rfl, nofun⟩
    | true =>
      refine .inr ⟨rfl, errorKind id, ?_, rfl⟩
      rcases hid with rfl | rfl | rfl <;> simp [errorKind]
  rw [fromCbor]
  match s, hs with
  | [], _ =>
    rw [List.head?_nil, cborV]
    rcases hfail 110 (.inl rfl) with h | h
    · exact .inl h
    · exact .inr (.inl h)
  | c :: s, hs =>
    simp only [List.head?_cons, List.tail_cons]
    have h := cborV_ends m ex s.length (3 * (c :: s).length + 3) c s hs (Nat.le_refl _) (by simp; omega)
    cases e : cborV m ex (3 * (c :: s).length + 3) (some c) s with
    | running => rw [e] at h; exact h.elim
    | fail id =>
      rw [e] at h
      rcases hfail id h with h | h
      · exact .inl h
      · exact .inr (.inl h)
    | threw k =>
      rw [e] at h
      rcases h with ⟨rfl, h⟩ | ⟨rfl, h, h'⟩
      · exact .inr (.inr (.inl ⟨rfl, h⟩))
      · exact .inr (.inr (.inr ⟨rfl, h, fun hx => by have := h' hx; simp; omega⟩))
    | ok p =>
      obtain ⟨evs, r⟩ := p
      obtain ⟨t, w, _, _, rfl⟩ := cborV_sound m ex _ c s r evs (fun b hb => hs b (List.mem_cons_of_mem _ hb)) e
      rw [finishRead_ok]
      by_cases hc : strict = true ∧ r ≠ []
      · rw [if_pos hc]
        cases ex with
        | false => exact .inl ⟨none, r.tail, rfl, nofun⟩
        | true => exact .inr (.inl ⟨rfl, _, List.mem_cons_self, rfl⟩)
      · rw [if_neg hc]
        exact .inl ⟨_, r, rfl, fun _ => nofun⟩

/-- any number of nested arrays -/
example (m : Mach) (strict : Bool) (n : Nat) : fromCbor m strict true (List.replicate n 0x81) ≠ .diverges := by
  intro h
  have := C125_terminates m strict true (s := List.replicate n 0x81) fun b hb => by
    rw [List.eq_of_mem_replicate hb]; decide
  rw [h] at this
  rcases this with ⟨_, _, h, _⟩ | ⟨_, _, _, h⟩ | ⟨h, _⟩ | ⟨h, _⟩ <;> cases h

/-- **C125** (what holds) Byte strings, tags, simple values other than false, true and null, reserved bytes and a stray
end mark have no counterpart in JSON: `parse_error.112`. -/
theorem C125_unsupported (m : Mach) (strict : Bool) {c : Nat} {s : Bytes}
    (h : (0x1C ≤ c ∧ c ≤ 0x1F) ∨ (0x3C ≤ c ∧ c ≤ 0x5F) ∨ (0x7C ≤ c ∧ c ≤ 0x7E) ∨ (0x9C ≤ c ∧ c ≤ 0x9E) ∨
      (0xBC ≤ c ∧ c ≤ 0xBE) ∨ (0xC0 ≤ c ∧ c ≤ 0xF3) ∨ c = 0xF7 ∨ c = 0xF8 ∨ 0xFC ≤ c) :
    fromCbor m strict true (c :: s) = .throws "parse_error.112" := by
  have : cborV m true (3 * (c :: s).length + 3) (some c) s = .fail 112 := by
    rw [show 3 * (c :: s).length + 3 = (3 * (c :: s).length + 2) + 1 from rfl, cborV]
    branch
  simp only [fromCbor, List.head?_cons, List.tail_cons, this]
  rfl

/-- a lone end mark is no item -/
example : ¬ ∃ w, Item true [0xFF] w := by
  rintro ⟨w, h⟩
  have h1 := (C125_reads_iff ⟨true, 9, 9, 9⟩ true (by decide) ⟨by decide, by decide, by decide, by decide⟩ _).mpr ⟨w, h, rfl⟩
  rw [C125_unsupported _ _ (by decide)] at h1
  cases h1

/-- a byte string, and a tagged item -/
example (m : Mach) : fromCbor m true true [0x41, 0x00] = .throws "parse_error.112" ∧
    fromCbor m true true [0xC1, 0x00] = .throws "parse_error.112" :=
  ⟨C125_unsupported m true (by decide), C125_unsupported m true (by decide)⟩

/-- **C125** (what holds) The names in a map must be text strings: otherwise `parse_error.113`. -/
theorem C125_names (m : Mach) (strict : Bool) {n c : Nat} {t s : Bytes} (ht : Head 5 n t) (hp : 0 < n)
    (hm : n ≤ m.maxObj) (hn : n ≠ 2 ^ 64 - 1) (hc : c < 0x60 ∨ (0x7C ≤ c ∧ c ≠ 0x7F)) :
    fromCbor m strict true (t ++ c :: s) = .throws "parse_error.113" := by
  obtain ⟨d, t', rfl, _, e⟩ := head_obj m true ht
  obtain ⟨n, rfl⟩ : ∃ k, n = k + 1 := ⟨n - 1, by omega⟩
  have hs : cborString m true (2 * s.length + 2) (some c) s = .fail 113 := by
    rw [show 2 * s.length + 2 = (2 * s.length + 1) + 1 from rfl, cborString]
    branch
  have h1 : cborV m true (3 * (d :: t' ++ c :: s).length + 3) (some d) (t' ++ c :: s) = .fail 113 := by
    obtain ⟨f, hf⟩ : ∃ f, 3 * (d :: t' ++ c :: s).length + 3 = f + 1 + 1 + 1 := ⟨_, rfl⟩
    rw [hf, e, cborObj, if_pos (show n + 1 ≠ noSize from hn), if_neg (by omega), cborMembers, hs]
    rfl
  simp only [fromCbor, List.cons_append, List.head?_cons, List.tail_cons] at h1 ⊢
  rw [h1]
  rfl

/-- `{1: 2}` -/
example : fromCbor (exMach true) true true [0xA1, 0x01, 0x02] = .throws "parse_error.113" :=
  C125_names (exMach true) true (n := 1) (t := [0xA1]) (.tiny (by decide)) (by decide) (by decide) (by decide) (by decide)

/-- **C125** (what does not hold) A negative number below -2^63, which RFC 7049 allows, is neither read as what it is nor
refused: the value is 2^64 more, a number that is not negative. -/
theorem C125_negative_fails (m : Mach) (strict ex : Bool) {bs : Bytes} (hl : bs.length = 8) (hb : ∀ b ∈ bs, b < 256)
    (h : 2 ^ 63 ≤ big bs) (hr : Room m 9) :
    Head 1 (big bs) (0x3B :: bs) ∧
    ∃ i, fromCbor m strict ex (0x3B :: bs) = .ok (some (.int i), []) ∧ i = -1 - big bs + 2 ^ 64 ∧ 0 ≤ i := by
  have hh : Head 1 (big bs) (0x3B :: bs) := Head.more (major := 1) (k := 3) (by omega) hl hb
  have hlt := big_lt hb
  rw [hl] at hlt
  refine ⟨hh, 2 ^ 64 - 1 - big bs, ?_, by omega, by omega⟩
  have := fromCbor_item m ex (r := []) (Item.laxNeg rfl hh h) (by rw [List.length_cons, hl]; exact hr)
  rw [List.append_nil] at this
  rw [fromCbor, this, finishRead_ok]
  simp [tidy]

/-- -2^63 - 1 is read as 2^63 - 1 -/
example : fromCbor (exMach true) true true [0x3B, 0x80, 0, 0, 0, 0, 0, 0, 0] = .ok (some (.int 9223372036854775807), []) := by
  obtain ⟨_, i, h, hi, _⟩ := C125_negative_fails (exMach true) true true (bs := [0x80, 0, 0, 0, 0, 0, 0, 0]) rfl (by decide)
    (by decide) (exMach_room _ (by decide))
  rw [h, hi]
  rfl

theorem head_first {major n : Nat} {t : Bytes} (h : Head major n t) : ∃ c t', t = c :: t' ∧
    ((t' = [] ∧ n < 24 ∧ c = 32 * major + n) ∨
      ∃ k < 4, c = 32 * major + 24 + k ∧ t'.length = 2 ^ k ∧ n = big t') := by
  cases h with
  | @tiny n h => exact ⟨_, [], rfl, .inl ⟨rfl, h, rfl⟩⟩
  | @more k bs hk hl hb => exact ⟨_, bs, rfl, .inr ⟨k, hk, rfl, hl, rfl⟩⟩

/-- **C125** (what does not hold) Texts that are not items of RFC 7049 are read as values: a string whose pieces are in pieces
themselves; a text string that is not UTF-8; an array, or a map, whose size is given as 2^64-1 and which ends at a
mark after fewer elements. -/
theorem C125_accepts_fails (m : Mach) (strict ex : Bool) (hr : Room m 10) :
    (fromCbor m strict ex [0x7F, 0x7F, 0xFF, 0xFF] = .ok (some (.str []), []) ∧
      ¬ ∃ w, Item false [0x7F, 0x7F, 0xFF, 0xFF] w) ∧
    (fromCbor m strict ex [0x61, 0xFF] = .ok (some (.str [0xFF]), []) ∧ ¬ ∃ w, Item false [0x61, 0xFF] w) ∧
    (fromCbor m strict ex [0x9B, 0xFF, 0xFF, 0xFF, 0xFF, 0xFF, 0xFF, 0xFF, 0xFF, 0xFF] = .ok (some (.arr []), []) ∧
      ¬ ∃ w, Item false [0x9B, 0xFF, 0xFF, 0xFF, 0xFF, 0xFF, 0xFF, 0xFF, 0xFF, 0xFF] w) ∧
    (fromCbor m strict ex [0xBB, 0xFF, 0xFF, 0xFF, 0xFF, 0xFF, 0xFF, 0xFF, 0xFF, 0xFF] = .ok (some (.obj []), []) ∧
      ¬ ∃ w, Item false [0xBB, 0xFF, 0xFF, 0xFF, 0xFF, 0xFF, 0xFF, 0xFF, 0xFF, 0xFF] w) := by
  have read : ∀ {t : Bytes} {w : Json Nat}, Item true t w → t.length ≤ 10 →
      fromCbor m strict ex t = .ok (some (tidy w), []) := by
    intro t w h hl
    have := fromCbor_item m ex (r := []) h (hr.mono hl)
    rw [List.append_nil] at this
    rw [fromCbor, this, finishRead_ok]
    simp
  have only : ∀ {t : Bytes} {w w' : Json Nat}, Item true t w → t.length ≤ 10 → Item false t w' → tidy w = tidy w' := by
    intro t w w' h hl h'
    have := (read h hl).symm.trans (read h'.relax hl)
    simpa using this
  have i1 : Item true [0x7F, 0x7F, 0xFF, 0xFF] (.str []) :=
    .str (.pieces (ts := [0x7F, 0xFF]) (Pieces.cons (t := [0x7F, 0xFF]) (s := []) (ts := []) (s' := [])
      (.pieces (ts := []) .nil) (.inl rfl) .nil))
  have i2 : Item true [0x61, 0xFF] (.str [0xFF]) := .str (.whole (t := [0x61]) (.tiny (by decide)) (.inl rfl))
  have f9 : ∀ {major : Nat}, Head major (2 ^ 64 - 1) [32 * major + 27, 0xFF, 0xFF, 0xFF, 0xFF, 0xFF, 0xFF, 0xFF, 0xFF] :=
    fun {major} => Head.more (major := major) (k := 3) (bs := [0xFF, 0xFF, 0xFF, 0xFF, 0xFF, 0xFF, 0xFF, 0xFF]) (by decide) rfl (by decide)
  have i3 : Item true [0x9B, 0xFF, 0xFF, 0xFF, 0xFF, 0xFF, 0xFF, 0xFF, 0xFF, 0xFF] (.arr []) :=
    Item.laxArr (ts := []) rfl (f9 (major := 4)) .nil
  have i4 : Item true [0xBB, 0xFF, 0xFF, 0xFF, 0xFF, 0xFF, 0xFF, 0xFF, 0xFF, 0xFF] (.obj []) :=
    Item.laxObj (ts := []) rfl (f9 (major := 5)) .nil
  have long : ∀ {major n : Nat} {t ts : Bytes}, Head major n t → n ≤ ts.length →
      [32 * major + 27, 0xFF, 0xFF, 0xFF, 0xFF, 0xFF, 0xFF, 0xFF, 0xFF, 0xFF] = t ++ ts → False := by
    intro major n t ts h hn hs
    obtain ⟨c, t', rfl, ⟨rfl, _, rfl⟩ | ⟨k, hk, rfl, hl, rfl⟩⟩ := head_first h
    · simp at hs; omega
    · simp only [List.cons_append, List.cons.injEq] at hs
      have : k = 3 := by omega
      subst this
      have h1 : t' = [0xFF, 0xFF, 0xFF, 0xFF, 0xFF, 0xFF, 0xFF, 0xFF] := by
        have := congrArg (List.take 8) hs.2
        rw [List.take_left' hl] at this
        exact this.symm
      have h2 := congrArg List.length hs.2
      rw [h1] at h2 hn
      simp [big] at h2 hn
      omega
  refine ⟨⟨read i1 (by decide), ?_⟩, ⟨read i2 (by decide), ?_⟩, ⟨read i3 (by decide), ?_⟩, ⟨read i4 (by decide), ?_⟩⟩
  · rintro ⟨w, hw⟩
    have e := only i1 (by decide) hw
    generalize hs : [0x7F, 0x7F, 0xFF, 0xFF] = s at hw
    cases hw <;> simp [tidy] at e
    rename_i h
    cases h with
    | whole h _ =>
      subst e
      obtain ⟨c, t', rfl, ⟨rfl, _, rfl⟩ | ⟨k, hk, rfl, _⟩⟩ := head_first h <;> simp at hs
      omega
    | pieces h =>
      simp only [List.cons.injEq, true_and] at hs
      cases h with
      | nil => simp at hs
      | @cons t _ ts _ ht hne _ =>
        have := text_length_pos ht
        match t with
        | [] => simp at this
        | c :: t =>
          simp at hs
          simp [← hs.1] at hne
  · rintro ⟨w, hw⟩
    have e := only i2 (by decide) hw
    generalize hs : [0x61, 0xFF] = s at hw
    cases hw <;> simp [tidy] at e
    rename_i h
    subst e
    cases h with
    | whole h hu =>
      simp only [Bool.false_eq_true, false_or] at hu
      obtain ⟨cs, hcs, e⟩ := hu
      match cs, hcs, e with
      | [], _, e => simp [utf8All] at e
      | c :: cs, hcs, e =>
        rw [utf8All, utf8] at e
        have hc := hcs c List.mem_cons_self
        split at e
        · simp at e; omega
        · split at e
          · simp at e
          · split at e <;> simp at e
    | pieces h => simp at hs
  · rintro ⟨w, hw⟩
    have e := only i3 (by decide) hw
    generalize hs : [0x9B, 0xFF, 0xFF, 0xFF, 0xFF, 0xFF, 0xFF, 0xFF, 0xFF, 0xFF] = s at hw
    cases hw <;> simp [tidy] at e
    · rename_i t ts vs h hi
      exact long h (items_length hi) hs
    · simp at hs
    · contradiction
  · rintro ⟨w, hw⟩
    have e := only i4 (by decide) hw
    generalize hs : [0xBB, 0xFF, 0xFF, 0xFF, 0xFF, 0xFF, 0xFF, 0xFF, 0xFF, 0xFF] = s at hw
    cases hw <;> simp [tidy] at e
    · rename_i t ts ms h hi
      exact long h (pairs_length hi) hs
    · simp at hs
    · contradiction

example : fromCbor (exMach true) true true [0x61, 0xFF] = .ok (some (.str [0xFF]), []) :=
  (C125_accepts_fails (exMach true) true true (exMach_room _ (by decide))).2.1.1

/-- **C125** (what does not hold) `allow_exceptions = false` does not keep exceptions away: they come from a size beyond
`max_size()`, and from a string said to be longer than `max_size()`, to which characters are appended after the end of the
input. -/
theorem C125_quiet_fails (m : Mach) (strict : Bool) (ha : m.maxArr < 2 ^ 32 * (2 ^ 32 - 1)) (hs : m.maxStr < 2 ^ 64 - 1) :
    fromCbor m strict false [0x9B, 0xFF, 0xFF, 0xFF, 0xFF, 0, 0, 0, 0] = .throws "out_of_range.408" ∧
    fromCbor m strict false [0x7B, 0xFF, 0xFF, 0xFF, 0xFF, 0xFF, 0xFF, 0xFF, 0xFF] = .throws "std::length_error" := by
  constructor
  · have h : Head 4 (2 ^ 32 * (2 ^ 32 - 1)) [0x9B, 0xFF, 0xFF, 0xFF, 0xFF, 0, 0, 0, 0] :=
      Head.more (major := 4) (k := 3) (bs := [0xFF, 0xFF, 0xFF, 0xFF, 0, 0, 0, 0]) (by decide) rfl (by decide)
    obtain ⟨c, t', e', _, e⟩ := head_arr m false h
    have e := e 29 []
    simp only [List.append_nil] at e
    rw [fromCbor, e']
    simp only [List.length_cons, List.head?_cons, List.tail_cons]
    have hl := congrArg List.length e'
    simp only [List.length_cons, List.length_nil] at hl
    rw [show 3 * (t'.length + 1) + 3 = 29 + 1 by omega, e, cborArr, if_pos (by decide), if_pos ha]
    rfl
  · rw [fromCbor]
    simp only [List.head?_cons, List.tail_cons, List.length_cons, List.length_nil]
    rw [cborV]
    branch
    rw [cborString]
    branch
    have := getNumber_append m (w := 8) (bs := [0xFF, 0xFF, 0xFF, 0xFF, 0xFF, 0xFF, 0xFF, 0xFF]) rfl []
    rw [List.append_nil] at this
    rw [this, Rd.ok_bind, takeString, if_neg (by simp [big]), if_neg (by decide), if_neg (by simp [big]; omega)]
    rfl

example : fromCbor (exMach true) true false [0x9B, 0xFF, 0xFF, 0xFF, 0xFF, 0, 0, 0, 0] = .throws "out_of_range.408" :=
  (C125_quiet_fails (exMach true) true (by decide) (by decide)).1

/-! ## Writing -/

/-- **C126** (what holds) What `to_cbor` returns is an item of RFC 7049 with the value written – integers that are
not negative are unsigned ones – provided the strings are UTF-8, and fewer than 2^64 bytes are written. -/
theorem C126_standard_partial (m : Mach) {v : Json Nat} (hv : Held v) (hf : ∀ x ∈ floats v, x < 2 ^ 64)
    (hs : ∀ s ∈ strings v, Utf8 s) (hl : (toCbor m v).length < 2 ^ 64) : Item false (toCbor m v) (unsign v) :=
  toCbor_item m false v hv hf (.inr hs) hl

example : toCbor (exMach true) (.arr [.int 1000, .uint 5, .null]) = [0x83, 0x19, 0x03, 0xE8, 0x05, 0xF6] ∧
    Item false [0x83, 0x19, 0x03, 0xE8, 0x05, 0xF6] (.arr [.uint 1000, .uint 5, .null]) := by
  have h : toCbor (exMach true) (.arr [.int 1000, .uint 5, .null]) = [0x83, 0x19, 0x03, 0xE8, 0x05, 0xF6] := by decide
  refine ⟨h, ?_⟩
  have := C126_standard_partial (exMach true) (v := .arr [.int 1000, .uint 5, .null]) (by simp [Held, HeldL])
    (by simp [floats, floatsL]) (by simp [strings, stringsL]) (by rw [h]; decide)
  rw [h] at this
  simpa [unsign, canon, canonL] using this

/-- **C126** (what does not hold) Strings are written as text strings even if they are not UTF-8: the result is then no item. -/
theorem C126_standard_fails (m : Mach) (hr : Room m 10) :
    toCbor m (.str [0xFF]) = [0x61, 0xFF] ∧ ¬ ∃ w, Item false [0x61, 0xFF] w := by
  refine ⟨?_, (C125_accepts_fails m true true hr).2.1.2⟩
  rw [toCbor, cborStr, cborStringHead_eq m (by decide)]
  rfl

example : toCbor (exMach true) (.str [0xFF]) = [0x61, 0xFF] := (C126_standard_fails _ (exMach_room _ (by decide))).1

/-- **C126** (what holds) Writing a value and reading the bytes, on any two machines, yields the value, whatever bytes
the strings hold, NaN and infinities included; only an integer that is not negative is unsigned
afterwards. -/
theorem C126_read_back (m m' : Mach) (strict ex : Bool) {v : Json Nat} (hv : Held v) (ho : Ordered v)
    (hf : ∀ x ∈ floats v, x < 2 ^ 64) (hr : Room m' (toCbor m v).length) :
    fromCbor m' strict ex (toCbor m v) = .ok (some (unsign v), []) := by
  have hi := toCbor_item m true v hv hf (.inl rfl) (by have := hr.4; omega)
  have := fromCbor_item m' ex (r := []) hi hr
  rw [List.append_nil] at this
  rw [fromCbor, this, finishRead_ok, tidy_canon anyFloat v ho]
  simp [unsign]

/-- from a machine with the lowest byte first to one with the highest first -/
example : fromCbor (exMach false) true true (toCbor (exMach true) (.obj [([0x6B], .float bitsNaN), ([0x6C], .int (-70000))])) =
    .ok (some (.obj [([0x6B], .float bitsNaN), ([0x6C], .int (-70000))]), []) := by
  rw [C126_read_back _ _ true true (by simp [Held, HeldM]) (by simp [Ordered, OrderedM, List.cons_lt_cons_iff])
    (by simp [floats, floatsM, bitsNaN]) (exMach_room _ (by decide))]
  simp [unsign, canon, canonM, anyFloat]

/-- **C126** (what holds) The value read back is equal to the one written exactly if there is no NaN in it. -/
theorem C126_equal_iff {L : Type} [LinearOrder L] (fo : FloatOrder Nat L) (m m' : Mach) (strict ex : Bool) {v : Json Nat}
    (hv : Held v) (ho : Ordered v) (hf : ∀ x ∈ floats v, x < 2 ^ 64) (hr : Room m' (toCbor m v).length) :
    (∃ w, fromCbor m' strict ex (toCbor m v) = .ok (some w, []) ∧ eqV fo w v = true) ↔
      ∀ x ∈ floats v, fo.place x ≠ none := by
  rw [C126_read_back m m' strict ex hv ho hf hr]
  constructor
  · rintro ⟨w, e, h⟩
    cases e
    exact fun x hx => (eqV_canon_only fo anyFloat v h x hx).2
  · intro h
    exact ⟨_, rfl, eqV_canon fo anyFloat v hv fun x hx => ⟨rfl, h x hx⟩⟩

/-- 1.5 comes back equal, a NaN does not -/
example : let fo : FloatOrder Nat Nat := ⟨fun x => if x = bitsNaN then none else some x, Int.toNat, Int.toNat⟩
    (∃ w, fromCbor (exMach true) true true (toCbor (exMach true) (.float 0x3FF8000000000000)) = .ok (some w, []) ∧
      eqV fo w (.float 0x3FF8000000000000) = true) ∧
    ¬ ∃ w, fromCbor (exMach true) true true (toCbor (exMach true) (.float bitsNaN)) = .ok (some w, []) ∧
      eqV fo w (.float bitsNaN) = true := by
  intro fo
  rw [C126_equal_iff fo _ _ _ _ (by simp [Held]) (by simp [Ordered]) (by simp [floats]) (exMach_room _ (by decide)),
    C126_equal_iff fo _ _ _ _ (by simp [Held]) (by simp [Ordered]) (by simp [floats, bitsNaN]) (exMach_room _ (by decide))]
  simp [floats, fo, bitsNaN]

/-- **C126** (what holds) The bytes do not depend on the byte order of the machine. -/
theorem C126_portable (m m' : Mach) (v : Json Nat) : toCbor m v = toCbor m' v := toCbor_mach m m' v

/-- **C126** (what holds) Integers take the fewest bytes possible: no item of RFC 7049 with this value is shorter. -/
theorem C126_shortest (m : Mach) {i : Int} (hi : Held (.int i : Json Nat)) {t : Bytes}
    (h : Item false t (unsign (.int i))) : (toCbor m (.int i)).length ≤ t.length := by
  rw [Held] at hi
  rw [toCbor]
  rw [unsign, canon] at h
  by_cases hp : 0 ≤ i
  · rw [if_pos hp] at h
    rw [cborInt_nonneg m hp]
    cases h with
    | uint h => exact headOf_shortest m h
  · rw [if_neg hp] at h
    rw [cborInt_neg m (by omega)]
    generalize e : (Json.int i : Json Nat) = w at h
    cases h <;> cases e
    · rename_i n h' h
      rw [show (-1 - (-1 - (n : Int))).toNat = n by omega]
      exact headOf_shortest m h
    · contradiction

example : (toCbor (exMach true) (.int 23)).length = 1 ∧ (toCbor (exMach true) (.int (-25))).length = 2 ∧
    Item false [0x38, 0x18] (unsign (.int (-25))) :=
  ⟨by decide, by decide, Item.neg (n := 24) (Head.more (major := 1) (k := 0) (bs := [0x18]) (by decide) rfl (by decide)) (by decide)⟩

end Verif.Json
