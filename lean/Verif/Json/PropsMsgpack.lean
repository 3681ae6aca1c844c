import Verif.Json.MsgRun
import Verif.Json.MsgWrite
import Verif.Json.PropsCbor

/-!
# Properties of the MessagePack format
-/

namespace Verif.Json
open Spec

/-! ## From the reader to `from_msgpack` -/

theorem fromMsg_item (m : Mach) (ex : Bool) {t r : Bytes} {w : Json Nat} (h : Msg.Item t w) (hr : Room m t.length) :
    msgV m ex (3 * (t ++ r).length + 3) (t ++ r).head? (t ++ r).tail = .ok (events w, r) := by
  obtain ⟨c, t', rfl, e⟩ := msgItem_read m ex h hr
  exact e _ r (by simp; omega)

theorem fromMsg_some {m : Mach} {strict ex : Bool} {s r : Bytes} {v : Json Nat} (hs : ∀ b ∈ s, b < 256)
    (h : fromMsg m strict ex s = .ok (some v, r)) :
    ∃ t w, s = t ++ r ∧ Msg.Item t w ∧ v = tidy w ∧ (strict = true → r = []) := by
  rw [fromMsg] at h
  match s, hs, h with
  | [], _, h => cases ex <;> simp [msgV, finishRead] at h
  | c :: s, hs, h =>
    simp only [List.head?_cons, List.tail_cons] at h
    cases e : msgV m ex (3 * (c :: s).length + 3) (some c) s with
    | running => rw [e] at h; cases h
    | threw k => rw [e] at h; cases h
    | fail id => rw [e, finishRead] at h; cases ex <;> simp at h
    | ok p =>
      obtain ⟨evs, r'⟩ := p
      obtain ⟨t, w, e', hi, rfl⟩ := msgV_sound m ex _ c s r' evs (fun b hb => hs b (List.mem_cons_of_mem _ hb)) e
      rw [e, finishRead_ok] at h
      by_cases hc : strict = true ∧ r' ≠ []
      · rw [if_pos hc] at h; cases ex <;> simp at h
      · rw [if_neg hc] at h
        cases h
        refine ⟨t, w, e', hi, rfl, fun hs => ?_⟩
        by_cases hr : r = []
        · exact hr
        · exact absurd ⟨hs, hr⟩ hc

/-! ## Reading -/

/-- **C128** (what holds) The value read from a text of bytes that is read to its end: there is one exactly if the text is
an object of the MessagePack specification that has a counterpart in JSON, in any of its forms, and it
is the value of that object, of repeated names the last.  Whether exceptions are allowed makes no difference.
`Room`: `max_size()` of arrays, objects and strings is at least the length of the text. -/
theorem C128_reads_iff (m : Mach) (ex : Bool) {s : Bytes} (hs : ∀ b ∈ s, b < 256) (hr : Room m s.length) (v : Json Nat) :
    fromMsg m true ex s = .ok (some v, []) ↔ ∃ w, Msg.Item s w ∧ v = tidy w := by
  constructor
  · intro h
    obtain ⟨t, w, e, hi, hv, _⟩ := fromMsg_some hs h
    rw [List.append_nil] at e
    exact ⟨w, e ▸ hi, hv⟩
  · rintro ⟨w, hi, rfl⟩
    have := fromMsg_item m ex (r := []) hi hr
    rw [List.append_nil] at this
    rw [fromMsg, this, finishRead_ok]
    simp

/-- **C128** (what holds) Without `strict`, the bytes after the object are left in the input, whatever they are. -/
theorem C128_rest_iff (m : Mach) (ex : Bool) {s : Bytes} (hs : ∀ b ∈ s, b < 256) (hr : Room m s.length) (v : Json Nat)
    (r : Bytes) :
    fromMsg m false ex s = .ok (some v, r) ↔ ∃ t w, s = t ++ r ∧ Msg.Item t w ∧ v = tidy w := by
  constructor
  · intro h
    obtain ⟨t, w, e, hi, hv, _⟩ := fromMsg_some hs h
    exact ⟨t, w, e, hi, hv⟩
  · rintro ⟨t, w, rfl, hi, rfl⟩
    rw [fromMsg, fromMsg_item m ex hi (hr.mono (by simp)), finishRead_ok]
    simp

/-- `{"a": [1, -2]}`, the size of the array in two bytes, and one byte more -/
example : fromMsg (exMach true) false true [0x81, 0xA1, 0x61, 0xDC, 0x00, 0x02, 0x01, 0xFE, 0xC1] =
    .ok (some (.obj [([0x61], .arr [.uint 1, .int (-2)])]), [0xC1]) := by
  rw [C128_rest_iff _ _ (by decide) (exMach_room _ (by decide))]
  refine ⟨[0x81, 0xA1, 0x61, 0xDC, 0x00, 0x02, 0x01, 0xFE], .obj [([0x61], .arr [.uint 1, .int (-2)])], rfl, ?_, rfl⟩
  exact Msg.Item.obj (t := [0x81]) (ms := [_]) (.small (by decide))
    (Msg.Pairs.cons (k := [0xA1]) (s := [0x61]) (t := [0xDC, 0x00, 0x02, 0x01, 0xFE]) (ts := []) (.small (by decide))
      (Msg.Item.arr (t := [0xDC, 0x00, 0x02]) (ts := [0x01, 0xFE])
        (Msg.Size.wide (k := 0) (bs := [0x00, 0x02]) (by decide) rfl (by decide))
        (Msg.Items.cons (t := [0x01]) (ts := [0xFE]) (.fixUint (by decide))
          (Msg.Items.cons (t := [0xFE]) (ts := []) (Msg.Item.fixInt (n := 30) (by decide)) .nil)))
      .nil)

/-- an integer in eight bytes: -2^63 -/
example : fromMsg (exMach true) true true [0xD3, 0x80, 0, 0, 0, 0, 0, 0, 0] = .ok (some (.int (-9223372036854775808)), []) := by
  rw [C128_reads_iff _ _ (by decide) (exMach_room _ (by decide))]
  exact ⟨_, Msg.Item.int (k := 3) (bs := [0x80, 0, 0, 0, 0, 0, 0, 0]) (by decide) rfl (by decide) (by decide) (by decide)
    (by decide), rfl⟩

/-- **C128** (what holds) With `strict`, anything after the object is an error, `parse_error.110`. -/
theorem C128_trailing (m : Mach) {t r : Bytes} {w : Json Nat} (h : Msg.Item t w) (hr : Room m t.length) (hn : r ≠ []) :
    fromMsg m true true (t ++ r) = .throws "parse_error.110" ∧
    ∃ r', fromMsg m true false (t ++ r) = .ok (none, r') := by
  rw [fromMsg, fromMsg, fromMsg_item m true h hr, fromMsg_item m false h hr, finishRead_ok, finishRead_ok]
  simp [hn]

example : fromMsg (exMach true) true true [0xC0, 0xC0] = .throws "parse_error.110" :=
  (C128_trailing (exMach true) (t := [0xC0]) .null (exMach_room _ (by decide)) (by decide)).1

/-- **C128** (what holds) Of an object no beginning is read as a value: if the input ends too early, the error is
`parse_error.110` – with or without `strict`; without exceptions, the value is discarded. -/
theorem C128_truncated (m : Mach) (strict : Bool) {p q : Bytes} {w : Json Nat} (hs : ∀ b ∈ p ++ q, b < 256)
    (h : Msg.Item (p ++ q) w) (hr : Room m (p ++ q).length) (hq : q ≠ []) :
    fromMsg m strict true p = .throws "parse_error.110" ∧ ∃ r, fromMsg m strict false p = .ok (none, r) := by
  have key : ∀ ex, msgV m ex (3 * p.length + 3) p.head? p.tail = .fail 110 := by
    intro ex
    match p, hs, h, hr with
    | [], _, _, _ => rw [List.head?_nil, msgV]
    | c :: p, hs, h, hr =>
      simp only [List.head?_cons, List.tail_cons]
      have h1 := fromMsg_item m ex (r := []) h hr
      simp only [List.append_nil, List.cons_append, List.head?_cons, List.tail_cons] at h1
      have h2 := msgV_goes m ex q (3 * (c :: p).length + 3) (3 * (c :: (p ++ q)).length + 3) c p (by simp; omega)
      have h3 := msgV_ends m ex _ (3 * (c :: p).length + 3) c p
        (AllBytes.left (t := c :: p) (s := q) fun b hb => hs b hb) (Nat.le_refl _) (by simp; omega)
      rw [h1] at h2
      cases e : msgV m ex (3 * (c :: p).length + 3) (some c) p with
      | running => rw [e] at h3; exact h3.elim
      | threw k => rw [e] at h2; cases h2
      | fail id =>
        rw [e] at h2
        rcases h2 with h2 | h2
        · rw [h2]
        · cases h2
      | ok x =>
        obtain ⟨a, r⟩ := x
        rw [e] at h2
        simp only [Goes, Rd.ok.injEq, Prod.mk.injEq] at h2
        have := congrArg List.length h2.2
        rw [List.length_append] at this
        have : 0 < q.length := List.length_pos_iff.mpr hq
        simp at *
        omega
  rw [fromMsg, fromMsg, key, key]
  exact ⟨rfl, _, rfl⟩

/-- `[1, 2]` without the last byte -/
example : fromMsg (exMach false) false true [0x92, 0x01] = .throws "parse_error.110" := by
  refine (C128_truncated (exMach false) false (p := [0x92, 0x01]) (q := [0x02]) (by decide) (w := .arr [.uint 1, .uint 2]) ?_
    (exMach_room _ (by decide)) (by decide)).1
  exact Msg.Item.arr (t := [0x92]) (ts := [0x01, 0x02]) (.small (by decide))
    (Msg.Items.cons (t := [0x01]) (ts := [0x02]) (.fixUint (by decide))
      (Msg.Items.cons (t := [0x02]) (ts := []) (.fixUint (by decide)) .nil))

/-- **C128** (what holds) Reading always comes to an end, and to a defined one: a value, or `parse_error` 110, 112 or 113;
or `out_of_range.408` if the input gives a size beyond `max_size()`; or `std::length_error`, which needs a string
beyond `max_size()` that is longer than the input if exceptions are allowed. -/
theorem C128_terminates (m : Mach) (strict ex : Bool) {s : Bytes} (hs : ∀ b ∈ s, b < 256) :
    (∃ v r, fromMsg m strict ex s = .ok (v, r) ∧ (ex = true → v ≠ none)) ∨
    (ex = true ∧ ∃ k ∈ ["parse_error.110", "parse_error.112", "parse_error.113"], fromMsg m strict ex s = .throws k) ∨
    (fromMsg m strict ex s = .throws "out_of_range.408" ∧ (m.maxArr < 2 ^ 64 - 1 ∨ m.maxObj < 2 ^ 64 - 1)) ∨
    (fromMsg m strict ex s = .throws "std::length_error" ∧ m.maxStr < 2 ^ 64 ∧ (ex = true → m.maxStr < s.length)) := by
  have hfail : ∀ id, (id = 110 ∨ id = 112 ∨ id = 113) →
      (∃ v r, finishRead strict ex (.fail id) = .ok (v, r) ∧ (ex = true → v ≠ none)) ∨
      (ex = true ∧ ∃ k ∈ ["parse_error.110", "parse_error.112", "parse_error.113"],
        finishRead strict ex (.fail id) = .throws k) := by
    intro id hid
    cases ex with
    | false => exact .inl ⟨none, [], rfl, nofun⟩
    | true =>
      refine .inr ⟨rfl, errorKind id, ?_, rfl⟩
      rcases hid with rfl | rfl | rfl <;> simp [errorKind]
  rw [fromMsg]
  match s, hs with
  | [], _ =>
    rw [List.head?_nil, msgV]
    rcases hfail 110 (.inl rfl) with h | h
    · exact .inl h
    · exact .inr (.inl h)
  | c :: s, hs =>
    simp only [List.head?_cons, List.tail_cons]
    have h := msgV_ends m ex s.length (3 * (c :: s).length + 3) c s hs (Nat.le_refl _) (by simp; omega)
    cases e : msgV m ex (3 * (c :: s).length + 3) (some c) s with
    | running => rw [e] at h; exact h.elim
    | fail id =>
      rw [e] at h
      rcases hfail id h with h | h
      · exact .inl h
      · exact .inr (.inl h)
    | threw k =>
      rw [e] at h
      rcases h with ⟨rfl, h⟩ | ⟨rfl, h, h'⟩
      · exact .inr (.inr (.inl ⟨rfl, h⟩))
      · exact .inr (.inr (.inr ⟨rfl, h, fun hx => by have := h' hx; simp; omega⟩))
    | ok p =>
      obtain ⟨evs, r⟩ := p
      obtain ⟨t, w, _, _, rfl⟩ := msgV_sound m ex _ c s r evs (fun b hb => hs b (List.mem_cons_of_mem _ hb)) e
      rw [finishRead_ok]
      by_cases hc : strict = true ∧ r ≠ []
      · rw [if_pos hc]
        cases ex with
        | false => exact .inl ⟨none, r.tail, rfl, nofun⟩
        | true => exact .inr (.inl ⟨rfl, _, List.mem_cons_self, rfl⟩)
      · rw [if_neg hc]
        exact .inl ⟨_, r, rfl, fun _ => nofun⟩

/-- any number of nested arrays -/
example (m : Mach) (strict : Bool) (n : Nat) : fromMsg m strict true (List.replicate n 0x91) ≠ .diverges := by
  intro h
  have := C128_terminates m strict true (s := List.replicate n 0x91) fun b hb => by
    rw [List.eq_of_mem_replicate hb]; decide
  rw [h] at this
  rcases this with ⟨_, _, h, _⟩ | ⟨_, _, _, h⟩ | ⟨h, _⟩ | ⟨h, _⟩ <;> cases h

/-- **C128** (what holds) Binary data, extension types (time stamps among them) and the byte that is never used have no
counterpart in JSON: `parse_error.112`. -/
theorem C128_unsupported (m : Mach) (strict : Bool) {c : Nat} {s : Bytes}
    (h : c = 0xC1 ∨ (0xC4 ≤ c ∧ c ≤ 0xC9) ∨ (0xD4 ≤ c ∧ c ≤ 0xD8)) :
    fromMsg m strict true (c :: s) = .throws "parse_error.112" := by
  have : msgV m true (3 * (c :: s).length + 3) (some c) s = .fail 112 := by
    rw [show 3 * (c :: s).length + 3 = (3 * (c :: s).length + 2) + 1 from rfl, msgV]
    branch
  simp only [fromMsg, List.head?_cons, List.tail_cons, this]
  rfl

/-- binary data, and a time stamp -/
example (m : Mach) : fromMsg m true true [0xC4, 0x01, 0x00] = .throws "parse_error.112" ∧
    fromMsg m true true [0xD6, 0xFF, 0, 0, 0, 0] = .throws "parse_error.112" :=
  ⟨C128_unsupported m true (by decide), C128_unsupported m true (by decide)⟩

/-- **C128** (what holds) The names in a map must be strings: otherwise `parse_error.113`. -/
theorem C128_names (m : Mach) (strict : Bool) {n c : Nat} {t s : Bytes} (ht : Msg.MapSize n t) (hp : 0 < n)
    (hm : n ≤ m.maxObj) (hc : ¬ (0xA0 ≤ c ∧ c ≤ 0xBF) ∧ ¬ (0xD9 ≤ c ∧ c ≤ 0xDB)) :
    fromMsg m strict true (t ++ c :: s) = .throws "parse_error.113" := by
  obtain ⟨d, t', rfl, e⟩ := msgObj_head m true ht
  obtain ⟨n, rfl⟩ : ∃ k, n = k + 1 := ⟨n - 1, by omega⟩
  have hs : msgString m true (some c) s = .fail 113 := by
    simp only [msgString]
    branch
  have h1 : msgV m true (3 * (d :: t' ++ c :: s).length + 3) (some d) (t' ++ c :: s) = .fail 113 := by
    obtain ⟨f, hf⟩ : ∃ f, 3 * (d :: t' ++ c :: s).length + 3 = f + 1 + 1 + 1 := ⟨_, rfl⟩
    rw [hf, e, msgObj, if_neg (by omega), msgMembers, hs]
    rfl
  simp only [fromMsg, List.cons_append, List.head?_cons, List.tail_cons] at h1 ⊢
  rw [h1]
  rfl

/-- `{1: 2}` -/
example : fromMsg (exMach true) true true [0x81, 0x01, 0x02] = .throws "parse_error.113" :=
  C128_names (exMach true) true (n := 1) (t := [0x81]) (.small (by decide)) (by decide) (by decide) (by decide)

/-- **C128** (what does not hold) `allow_exceptions = false` does not keep exceptions away if `max_size()` is below 2^32: a size
beyond it throws. -/
theorem C128_quiet_fails (m : Mach) (strict : Bool) (ha : m.maxArr < 2 ^ 32 - 1) :
    fromMsg m strict false [0xDD, 0xFF, 0xFF, 0xFF, 0xFF] = .throws "out_of_range.408" := by
  have h : Msg.ArrSize (2 ^ 32 - 1) [0xDD, 0xFF, 0xFF, 0xFF, 0xFF] :=
    Msg.Size.wide (k := 1) (bs := [0xFF, 0xFF, 0xFF, 0xFF]) (by decide) rfl (by decide)
  obtain ⟨c, t', e', e⟩ := msgArr_head m false h
  have e := e 17 []
  simp only [List.append_nil] at e
  rw [fromMsg, e']
  simp only [List.length_cons, List.head?_cons, List.tail_cons]
  have hl := congrArg List.length e'
  simp only [List.length_cons, List.length_nil] at hl
  rw [show 3 * (t'.length + 1) + 3 = 17 + 1 by omega, e, msgArr, if_pos ha]
  rfl

/-- a machine with 32 bits -/
example : fromMsg ⟨true, 2 ^ 28, 2 ^ 27, 2 ^ 30⟩ true false [0xDD, 0xFF, 0xFF, 0xFF, 0xFF] = .throws "out_of_range.408" :=
  C128_quiet_fails ⟨true, 2 ^ 28, 2 ^ 27, 2 ^ 30⟩ true (by decide)

/-! ## Writing -/

/-- **C129** (what holds) What `to_msgpack` returns is an object of the MessagePack specification with the value written –
integers that are not negative are unsigned ones – provided no string or name has 2^32 bytes or more, and no array or
object 2^32 elements or more. -/
theorem C129_standard_partial (m : Mach) {v : Json Nat} (hv : Held v) (hf : ∀ x ∈ floats v, x < 2 ^ 64) (hs : Sized v) :
    Msg.Item (toMsg m v) (unsign v) := toMsg_item m v hv hf hs

example : toMsg (exMach true) (.arr [.int 1000, .uint 5, .int (-200), .null]) = [0x94, 0xCD, 0x03, 0xE8, 0x05, 0xD1, 0xFF, 0x38, 0xC0] ∧
    Msg.Item [0x94, 0xCD, 0x03, 0xE8, 0x05, 0xD1, 0xFF, 0x38, 0xC0] (.arr [.uint 1000, .uint 5, .int (-200), .null]) := by
  have h : toMsg (exMach true) (.arr [.int 1000, .uint 5, .int (-200), .null]) =
    [0x94, 0xCD, 0x03, 0xE8, 0x05, 0xD1, 0xFF, 0x38, 0xC0] := by decide
  refine ⟨h, ?_⟩
  have := C129_standard_partial (exMach true) (v := .arr [.int 1000, .uint 5, .int (-200), .null]) (by simp [Held, HeldL])
    (by simp [floats, floatsL]) (by simp [Sized, SizedL])
  rw [h] at this
  simpa [unsign, canon, canonL] using this

/-- **C129** (what does not hold) A string of 2^32 bytes or more, and an array or object of 2^32 elements or more, is written
without its first bytes – the type and the length are missing – and nothing is reported: only the characters are
written, or the elements. -/
theorem C129_standard_fails (m : Mach) :
    (∀ s : Bytes, 2 ^ 32 ≤ s.length → toMsg m (.str s) = s) ∧
    (∀ v vs, 2 ^ 32 ≤ (v :: vs).length → ∃ r, toMsg m (.arr (v :: vs)) = toMsg m v ++ r) ∧
    (∀ k v ms, 2 ^ 32 ≤ ((k, v) :: ms).length → ∃ r, toMsg m (.obj ((k, v) :: ms)) = toMsg m (.str k) ++ r) := by
  refine ⟨fun s hs => ?_, fun v vs hl => ?_, fun k v ms hl => ?_⟩
  · rw [toMsg, msgStr, msgStringHead, if_neg (by omega), if_neg (by omega), if_neg (by omega), if_neg (by omega)]
    rfl
  · rw [toMsg, msgArrHead, if_neg (by omega), if_neg (by omega), if_neg (by omega), List.nil_append, toMsgL]
    exact ⟨_, rfl⟩
  · rw [toMsg, toMsg, msgObjHead, if_neg (by omega), if_neg (by omega), if_neg (by omega), List.nil_append, toMsgM,
      List.append_assoc]
    exact ⟨_, rfl⟩

/-- a string of 2^32 characters `"a"` is written as so many numbers 97: the value read back is the first -/
example : fromMsg (exMach true) false true (toMsg (exMach true) (.str (List.replicate (2 ^ 32) 0x61))) =
    .ok (some (.uint 97), List.replicate (2 ^ 32 - 1) 0x61) ∧
    fromMsg (exMach true) true true (toMsg (exMach true) (.str (List.replicate (2 ^ 32) 0x61))) = .throws "parse_error.110" := by
  have h : List.replicate (2 ^ 32) 0x61 = [0x61] ++ List.replicate (2 ^ 32 - 1) 0x61 := by
    rw [show 2 ^ 32 = (2 ^ 32 - 1) + 1 by decide, List.replicate_succ]
    rfl
  rw [(C129_standard_fails _).1 _ (by rw [List.length_replicate]), h]
  constructor
  · rw [C128_rest_iff]
    · exact ⟨[0x61], .uint 97, rfl, .fixUint (by decide), rfl⟩
    · intro b hb
      rw [← h] at hb
      rw [List.eq_of_mem_replicate hb]
      decide
    · rw [← h, List.length_replicate]
      exact exMach_room _ (by decide)
  · refine (C128_trailing _ (t := [0x61]) (.fixUint (by decide)) (exMach_room _ (by decide)) ?_).1
    rw [Ne, List.replicate_eq_nil_iff]
    decide

/-- **C129** (what holds) Within these sizes, writing a value and reading the bytes, on any two machines, yields the value,
whatever bytes the strings hold, NaN and infinities included; only an integer that is not negative is unsigned afterwards.
Without `strict` what follows is left in the input: values written one after the other are read one after
the other. -/
theorem C129_read_back (m m' : Mach) (strict ex : Bool) {v : Json Nat} (hv : Held v) (ho : Ordered v)
    (hf : ∀ x ∈ floats v, x < 2 ^ 64) (hs : Sized v) (hr : Room m' (toMsg m v).length) {r : Bytes}
    (hr' : strict = true → r = []) :
    fromMsg m' strict ex (toMsg m v ++ r) = .ok (some (unsign v), r) := by
  have hi := toMsg_item m v hv hf hs
  rw [fromMsg, fromMsg_item m' ex (r := r) hi hr, finishRead_ok, tidy_canon anyFloat v ho]
  rw [if_neg fun h => h.2 (hr' h.1)]
  rfl

/-- from a machine with the lowest byte first to one with the highest first -/
example : fromMsg (exMach false) true true (toMsg (exMach true) (.obj [([0x6B], .float bitsNaN), ([0x6C], .int (-70000))])) =
    .ok (some (.obj [([0x6B], .float bitsNaN), ([0x6C], .int (-70000))]), []) := by
  have := C129_read_back (exMach true) (exMach false) true true
    (v := .obj [([0x6B], .float bitsNaN), ([0x6C], .int (-70000))]) (by simp [Held, HeldM])
    (by simp [Ordered, OrderedM, List.cons_lt_cons_iff])
    (by simp [floats, floatsM, bitsNaN]) (by simp [Sized, SizedM]) (exMach_room _ (by decide)) (r := []) (fun _ => rfl)
  rw [List.append_nil] at this
  rw [this]
  simp [unsign, canon, canonM, anyFloat]

/-- **C129** (what holds) The value read back is equal to the one written exactly if there is no NaN in it. -/
theorem C129_equal_iff {L : Type} [LinearOrder L] (fo : FloatOrder Nat L) (m m' : Mach) (strict ex : Bool) {v : Json Nat}
    (hv : Held v) (ho : Ordered v) (hf : ∀ x ∈ floats v, x < 2 ^ 64) (hs : Sized v) (hr : Room m' (toMsg m v).length) :
    (∃ w, fromMsg m' strict ex (toMsg m v) = .ok (some w, []) ∧ eqV fo w v = true) ↔
      ∀ x ∈ floats v, fo.place x ≠ none := by
  have := C129_read_back m m' strict ex hv ho hf hs hr (r := []) (fun _ => rfl)
  rw [List.append_nil] at this
  rw [this]
  constructor
  · rintro ⟨w, e, h⟩
    cases e
    exact fun x hx => (eqV_canon_only fo anyFloat v h x hx).2
  · intro h
    exact ⟨_, rfl, eqV_canon fo anyFloat v hv fun x hx => ⟨rfl, h x hx⟩⟩

/-- 1.5 comes back equal, a NaN does not -/
example : let fo : FloatOrder Nat Nat := ⟨fun x => if x = bitsNaN then none else some x, Int.toNat, Int.toNat⟩
    (∃ w, fromMsg (exMach true) true true (toMsg (exMach true) (.float 0x3FF8000000000000)) = .ok (some w, []) ∧
      eqV fo w (.float 0x3FF8000000000000) = true) ∧
    ¬ ∃ w, fromMsg (exMach true) true true (toMsg (exMach true) (.float bitsNaN)) = .ok (some w, []) ∧
      eqV fo w (.float bitsNaN) = true := by
  intro fo
  rw [C129_equal_iff fo _ _ _ _ (by simp [Held]) (by simp [Ordered]) (by simp [floats]) (by simp [Sized]) (exMach_room _ (by decide)),
    C129_equal_iff fo _ _ _ _ (by simp [Held]) (by simp [Ordered]) (by simp [floats, bitsNaN]) (by simp [Sized])
      (exMach_room _ (by decide))]
  simp [floats, fo, bitsNaN]

/-- **C129** (what holds) The bytes do not depend on the byte order of the machine. -/
theorem C129_portable (m m' : Mach) (v : Json Nat) : toMsg m v = toMsg m' v := toMsg_mach m m' v

/-- **C129** (what holds) The fewest bytes possible: no object of the MessagePack specification with the same value – be its
integers signed or unsigned – is shorter.  (Values with floating-point numbers apart: these are always written with eight
bytes.) -/
theorem C129_shortest (m : Mach) {v w : Json Nat} {t : Bytes} (hf : floats v = []) (h : Msg.Item t w)
    (e : unsign w = unsign v) : (toMsg m v).length ≤ t.length := toMsg_shortest m v hf h e

/-- 128 takes two bytes as an unsigned number, three as a signed one -/
example : toMsg (exMach true) (.int 128) = [0xCC, 0x80] ∧ Msg.Item [0xD1, 0x00, 0x80] (.int 128) ∧
    (toMsg (exMach true) (.int 128)).length ≤ [0xD1, 0x00, 0x80].length := by
  have h : Msg.Item [0xD1, 0x00, 0x80] (.int 128) :=
    Msg.Item.int (k := 1) (bs := [0x00, 0x80]) (by decide) rfl (by decide) (by decide) (by decide) (by decide)
  exact ⟨by decide, h, C129_shortest _ (by simp [floats]) h rfl⟩

end Verif.Json
