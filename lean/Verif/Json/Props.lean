import Verif.Json.ParseLemmas

/-!
# Reading JSON: the properties
-/

namespace Verif.Json
open Spec

/-! ## Strings -/

theorem utf8All_append (a b : List Nat) : utf8All (a ++ b) = utf8All a ++ utf8All b := by
  induction a with
  | nil => rfl
  | cons c a ih => simp [utf8All, ih]

theorem strChar_utf8 {t s : Bytes} (h : StrChar t s) : ∃ c, Scalar c ∧ s = utf8 c := by
  cases h with
  | plain h _ _ _ => exact ⟨_, h, rfl⟩
  | escape h =>
    rename_i e c
    have hc : c < 0x80 := by
      simp only [escapes, List.mem_cons, Prod.mk.injEq, List.not_mem_nil, or_false] at h
      omega
    exact ⟨c, .inl (by omega), by rw [utf8, if_pos hc]⟩
  | unicode _ h => exact ⟨_, h, rfl⟩
  | pair _ _ h1 h2 h3 h4 =>
    rename_i a b _ _
    exact ⟨0x10000 + (a - 0xD800) * 0x400 + (b - 0xDC00), .inr (by omega), rfl⟩

theorem strChars_utf8 {t s : Bytes} (h : StrChars t s) : Utf8 s := by
  induction h with
  | nil => exact ⟨[], by simp, rfl⟩
  | cons h _ ih =>
    obtain ⟨c, hc, rfl⟩ := strChar_utf8 h
    obtain ⟨cs, hcs, rfl⟩ := ih
    refine ⟨c :: cs, fun x hx => ?_, rfl⟩
    rcases List.mem_cons.1 hx with rfl | hx
    · exact hc
    · exact hcs x hx

mutual
/-- all the strings in a value, the names of objects included -/
def strings : Json F → List Bytes
  | .str s => [s]
  | .arr xs => stringsL xs
  | .obj ms => stringsM ms
  | _ => []
def stringsL : List (Json F) → List Bytes
  | [] => []
  | v :: vs => strings v ++ stringsL vs
def stringsM : List (Bytes × Json F) → List Bytes
  | [] => []
  | (k, v) :: ms => k :: (strings v ++ stringsM ms)
end

theorem strings_setKey {k : Bytes} {v : Json F} {x : Bytes} : ∀ {ms : List (Bytes × Json F)},
    x ∈ stringsM (setKey k v ms) → x = k ∨ x ∈ strings v ∨ x ∈ stringsM ms
  | [], h => by simpa [setKey, stringsM] using h
  | (k', v') :: ms, h => by
    rw [setKey] at h
    by_cases h1 : keyLt k k' = true
    · rw [if_pos h1] at h
      simpa [stringsM] using h
    · rw [if_neg h1] at h
      by_cases h2 : keyLt k' k = true
      · rw [if_pos h2] at h
        simp only [stringsM, List.mem_cons, List.mem_append] at h ⊢
        rcases h with h | h | h
        · exact .inr (.inr (.inl h))
        · exact .inr (.inr (.inr (.inl h)))
        · rcases strings_setKey h with h | h | h
          · exact .inl h
          · exact .inr (.inl h)
          · exact .inr (.inr (.inr (.inr h)))
      · rw [if_neg h2] at h
        simp only [stringsM, List.mem_cons, List.mem_append] at h ⊢
        rcases h with h | h | h
        · exact .inl h
        · exact .inr (.inl h)
        · exact .inr (.inr (.inr (.inr h)))

mutual
theorem strings_tidy {x : Bytes} : ∀ (v : Json F), x ∈ strings (tidy v) → x ∈ strings v
  | .null, h => by rw [tidy] at h; exact h
  | .bool _, h => by rw [tidy] at h; exact h
  | .int _, h => by rw [tidy] at h; exact h
  | .uint _, h => by rw [tidy] at h; exact h
  | .float _, h => by rw [tidy] at h; exact h
  | .str _, h => by rw [tidy] at h; exact h
  | .arr xs, h => by
    rw [tidy, strings] at h; rw [strings]; exact strings_tidyL xs h
  | .obj ms, h => by
    rw [tidy, strings] at h; rw [strings]
    rcases strings_tidyM ms [] h with h | h
    · exact h
    · rw [stringsM] at h; cases h
theorem strings_tidyL {x : Bytes} : ∀ (vs : List (Json F)), x ∈ stringsL (tidyL vs) → x ∈ stringsL vs
  | [], h => by rw [tidyL] at h; exact h
  | v :: vs, h => by
    rw [tidyL, stringsL] at h
    rw [stringsL]
    rcases List.mem_append.1 h with h | h
    · exact List.mem_append_left _ (strings_tidy v h)
    · exact List.mem_append_right _ (strings_tidyL vs h)
theorem strings_tidyM {x : Bytes} : ∀ (ms acc : List (Bytes × Json F)),
    x ∈ stringsM (tidyM acc ms) → x ∈ stringsM ms ∨ x ∈ stringsM acc
  | [], acc, h => by rw [tidyM] at h; exact .inr h
  | (k, v) :: ms, acc, h => by
    rw [tidyM] at h
    rw [stringsM, List.mem_cons, List.mem_append]
    rcases strings_tidyM ms _ h with h | h
    · exact .inl (.inr (.inr h))
    · rcases strings_setKey h with h | h | h
      · exact .inl (.inl h)
      · exact .inl (.inr (.inl (strings_tidy v h)))
      · exact .inr h
end

mutual
theorem value_utf8 {fl : Floats F} {t : Bytes} {v : Json F} (h : Value fl t v) :
    ∀ x ∈ strings v, Utf8 x :=
  match h with
  | .null => fun x hx => by rw [strings] at hx; cases hx; all_goals simp
  | .true => fun x hx => by rw [strings] at hx; cases hx; all_goals simp
  | .false => fun x hx => by rw [strings] at hx; cases hx; all_goals simp
  | .num h1 => fun x hx => by
      cases h1 <;> (rw [strings] at hx; cases hx; all_goals simp)
  | .str h1 => fun x hx => by
      rw [strings, List.mem_singleton] at hx; subst hx; exact strChars_utf8 h1
  | .emptyArr _ => fun x hx => by rw [strings, stringsL] at hx; cases hx
  | .emptyObj _ => fun x hx => by rw [strings, stringsM] at hx; cases hx
  | .arr h1 => fun x hx => by rw [strings] at hx; exact elements_utf8 h1 x hx
  | .obj h1 => fun x hx => by rw [strings] at hx; exact members_utf8 h1 x hx
theorem elements_utf8 {fl : Floats F} {t : Bytes} {vs : List (Json F)} (h : Elements fl t vs) :
    ∀ x ∈ stringsL vs, Utf8 x :=
  match h with
  | .one _ h1 _ => fun x hx => by
      rw [stringsL, stringsL, List.append_nil] at hx; exact value_utf8 h1 x hx
  | .cons _ h1 _ h2 => fun x hx => by
      rw [stringsL] at hx
      rcases List.mem_append.1 hx with hx | hx
      · exact value_utf8 h1 x hx
      · exact elements_utf8 h2 x hx
theorem members_utf8 {fl : Floats F} {t : Bytes} {ms : List (Bytes × Json F)}
    (h : Members fl t ms) : ∀ x ∈ stringsM ms, Utf8 x :=
  match h with
  | .one _ hk _ _ h1 _ => fun x hx => by
      rw [stringsM, stringsM, List.append_nil, List.mem_cons] at hx
      rcases hx with rfl | hx
      · exact strChars_utf8 hk
      · exact value_utf8 h1 x hx
  | .cons _ hk _ _ h1 _ h2 => fun x hx => by
      rw [stringsM, List.mem_cons, List.mem_append] at hx
      rcases hx with rfl | hx | hx
      · exact strChars_utf8 hk
      · exact value_utf8 h1 x hx
      · exact members_utf8 h2 x hx
end

/-! ## C110: what is read -/

/-- **C110** A text is accepted, and read as `v`, exactly if it is a JSON text of RFC 8259 (possibly after a
byte order mark) for `v` – up to its end or, this is the disagreement, up to a byte 0 after which
anything may stand. -/
theorem C110_reads_iff (fl : Floats F) (s : Bytes) (v : Json F) :
    parseAll fl s = .ok v ↔
      ∃ b w t w' e raw, Bom b ∧ Ws w ∧ Value fl t raw ∧ Ws w' ∧ (e = [] ∨ ∃ r, e = 0 :: r) ∧
        s = b ++ w ++ t ++ w' ++ e ∧ v = tidy raw := by
  rw [parseAll_iff]
  constructor
  · rintro ⟨raw, w', e, ⟨b, w, t, hb, hw, hv, _, rfl⟩, hw', he, rfl⟩
    exact ⟨b, w, t, w', e, raw, hb, hw, hv, hw', he, by simp, rfl⟩
  · rintro ⟨b, w, t, w', e, raw, hb, hw, hv, hw', he, rfl, rfl⟩
    refine ⟨raw, w', e, ⟨b, w, t, hb, hw, hv, fun _ => ?_, by simp⟩, hw', he, rfl⟩
    rcases he with rfl | ⟨r, rfl⟩
    · rw [List.append_nil]; exact munch_ws_end hw'
    · exact munch_ws hw' (by unfold NotNumeric Digit; omega)

/-- `[1, {"a": -2}]` -/
example (fl : Floats F) :
    parseAll fl [0x5B, 0x31, 0x2C, 0x20, 0x7B, 0x22, 0x61, 0x22, 0x3A, 0x20, 0x2D, 0x32, 0x7D, 0x5D] =
      .ok (.arr [.uint 1, .obj [([0x61], .int (-2))]]) := by rfl

/-- **C110** (texts without a byte 0): accepted exactly if a JSON text. -/
theorem C110_reads_partial (fl : Floats F) (s : Bytes) (hz : 0 ∉ s) (v : Json F) :
    parseAll fl s = .ok v ↔
      ∃ b w t w' raw, Bom b ∧ Ws w ∧ Value fl t raw ∧ Ws w' ∧ s = b ++ w ++ t ++ w' ∧
        v = tidy raw := by
  rw [C110_reads_iff]
  constructor
  · rintro ⟨b, w, t, w', e, raw, hb, hw, hv, hw', he, rfl, rfl⟩
    rcases he with rfl | ⟨r, rfl⟩
    · exact ⟨b, w, t, w', raw, hb, hw, hv, hw', by simp, rfl⟩
    · exact absurd (by simp) hz
  · rintro ⟨b, w, t, w', raw, hb, hw, hv, hw', rfl, rfl⟩
    exact ⟨b, w, t, w', [], raw, hb, hw, hv, hw', .inl rfl, by simp, rfl⟩

/-- ` "a\n"` -/
example (fl : Floats F) :
    0 ∉ [0x20, 0x22, 0x61, 0x5C, 0x6E, 0x22] ∧
      parseAll fl [0x20, 0x22, 0x61, 0x5C, 0x6E, 0x22] = .ok (.str [0x61, 0x0A]) :=
  ⟨by decide, by rfl⟩

/-- **C110** fails: the text `1`, a byte 0, `x` is accepted, and is no JSON text. -/
theorem C110_text_after_zero_fails (fl : Floats F) :
    ¬ ∀ (s : Bytes) (v : Json F), parseAll fl s = .ok v →
      ∃ b w t w' raw, Bom b ∧ Ws w ∧ Value fl t raw ∧ Ws w' ∧ s = b ++ w ++ t ++ w' := by
  intro h
  obtain ⟨b, w, t, w', raw, hb, hw, hv, hw', e⟩ := h [0x31, 0x00, 0x78] (.uint 1) rfl
  rcases hb with rfl | rfl
  · rw [List.nil_append] at e
    rcases w with _ | ⟨c, w⟩
    · rw [List.nil_append] at e
      rcases List.eq_nil_or_concat w' with rfl | ⟨w1, c, rfl⟩
      · rw [List.append_nil] at e
        subst e
        have := PV_complete fl hv [] (fun _ => munch_nil)
        obtain ⟨tok, l1, hs, hp⟩ := this
        have h1 := hs [] Ws.nil
        have h2 : scanToken fl [0x31, 0x00, 0x78] = (.uint 1, ⟨[0x00, 0x78], true⟩) := rfl
        rw [List.nil_append, List.append_nil, h2] at h1
        cases h1
        cases hp
      · have : (0x78 : Nat) = c := by
          have := congrArg List.getLast? e
          simpa using this
        subst this
        have := hw' 0x78 (by simp)
        omega
    · have : (0x31 : Nat) = c := by
        have := congrArg List.head? e
        simpa using this
      subst this
      have := hw 0x31 (by simp)
      omega
  · have := congrArg List.head? e
    simp at this

/-- **C110** An array is read element by element; an object has each name once, in the order of the names, with
the value the text gives last. -/
theorem C110_members (xs : List (Json F)) (ms : List (Bytes × Json F)) :
    tidy (.arr xs) = .arr (xs.map tidy) ∧
      ∃ ms', tidy (.obj ms) = .obj ms' ∧ ms'.Pairwise (fun a b => a.1 < b.1) ∧
        ∀ k w, (k, w) ∈ ms' ↔
          ∃ a v b, ms = a ++ (k, v) :: b ∧ (∀ x ∈ b, x.1 ≠ k) ∧ w = tidy v := by
  refine ⟨?_, tidyM [] ms, by rw [tidy], sorted_tidyM ms [] List.Pairwise.nil, fun k w => ?_⟩
  · rw [tidy]
    congr 1
    induction xs with
    | nil => rw [tidyL]; rfl
    | cons v vs ih => rw [tidyL, ih]; rfl
  · rw [mem_tidyM k w ms [] List.Pairwise.nil]
    simp

/-- `{"b":1,"a":2,"b":3}` -/
example (fl : Floats F) :
    parseAll fl [0x7B, 0x22, 0x62, 0x22, 0x3A, 0x31, 0x2C, 0x22, 0x61, 0x22, 0x3A, 0x32, 0x2C, 0x22, 0x62,
      0x22, 0x3A, 0x33, 0x7D] = .ok (.obj [([0x61], .uint 2), ([0x62], .uint 3)]) := by rfl

/-- **C110** Every string read, names included, is well-formed UTF-8, whatever the bytes of the text. -/
theorem C110_strings_utf8 (fl : Floats F) (s : Bytes) (v : Json F) (h : parseAll fl s = .ok v) :
    ∀ x ∈ strings v, Utf8 x := by
  obtain ⟨b, w, t, w', e, raw, _, _, hv, _, _, _, rfl⟩ := (C110_reads_iff fl s v).1 h
  exact fun x hx => value_utf8 hv x (strings_tidy raw hx)

/-- `"é"` is read as two bytes; a lone surrogate, and a byte that is not UTF-8, is refused -/
example (fl : Floats F) :
    parseAll fl [0x22, 0x5C, 0x75, 0x30, 0x30, 0x65, 0x39, 0x22] = .ok (.str [0xC3, 0xA9]) ∧
    parseAll fl [0x22, 0x5C, 0x75, 0x64, 0x38, 0x30, 0x30, 0x22] = .throws "parse_error.101" ∧
    parseAll fl [0x22, 0xC0, 0x80, 0x22] = .throws "parse_error.101" := ⟨by rfl, by rfl, by rfl⟩

/-- **C110** Reading ends on every input, touches no memory it may not, and fails by the two exceptions only. -/
theorem C110_terminates (fl : Floats F) (s : Bytes) :
    (∃ v, parseAll fl s = .ok v) ∨ parseAll fl s = .throws "parse_error.101" ∨
      parseAll fl s = .throws "out_of_range.406" := by
  simp only [parseAll]
  rcases parse_outcome fl true .null s with ⟨⟨v, r⟩, h⟩ | h | h <;> rw [h] <;> simp

/-- `[`, and a number the floating-point type cannot hold -/
example : parseAll (⟨fun _ => 0, fun _ => true, fun _ => []⟩ : Floats Nat) [0x5B] =
      .throws "parse_error.101" ∧
    parseAll (⟨fun _ => 0, fun _ => false, fun _ => []⟩ : Floats Nat) [0x31, 0x65, 0x39] =
      .throws "out_of_range.406" := ⟨rfl, rfl⟩

/-! ## C111: reading from a stream -/

/-- **C111** Reading from a stream takes one value: it succeeds exactly if the stream begins with a value's
text, and leaves what stands behind it – but for a number it takes one byte more.  What the
variable held before does not matter. -/
theorem C111_stream_iff (fl : Floats F) (old v : Json F) (s rest : Bytes) :
    extract fl old s = .ok (v, rest) ↔
      ∃ b w t r raw, Bom b ∧ Ws w ∧ Value fl t raw ∧ (IsNumber raw → Munch t r) ∧
        s = b ++ w ++ t ++ r ∧ v = tidy raw ∧
        (IsNumber raw → rest = r.tail) ∧ (¬ IsNumber raw → rest = r) := by
  rw [extract_iff]
  constructor
  · rintro ⟨raw, r, ⟨b, w, t, hb, hw, hv, hm, rfl⟩, rfl, rfl⟩
    refine ⟨b, w, t, r, raw, hb, hw, hv, hm, rfl, rfl, fun h => ?_, fun h => ?_⟩
    · rw [if_pos (isNum_iff.2 h)]
    · rw [if_neg (fun h' => h (isNum_iff.1 h'))]
  · rintro ⟨b, w, t, r, raw, hb, hw, hv, hm, rfl, rfl, h1, h2⟩
    refine ⟨raw, r, ⟨b, w, t, hb, hw, hv, hm, rfl⟩, rfl, ?_⟩
    by_cases h : raw.isNum = true
    · rw [if_pos h]; exact h1 (isNum_iff.1 h)
    · rw [if_neg h]; exact h2 (fun h' => h (isNum_iff.2 h'))

/-- `[] x` leaves ` x` -/
example (fl : Floats F) (old : Json F) :
    extract fl old [0x5B, 0x5D, 0x20, 0x78] = .ok (.arr [], [0x20, 0x78]) := by rfl

/-- **C111** fails for numbers: from `1[2]` the number is read, and with it the bracket. -/
theorem C111_number_takes_a_byte_fails (fl : Floats F) :
    ∃ s v t r, Value fl t v ∧ IsNumber v ∧ Munch t r ∧ s = t ++ r ∧
      ∃ rest, extract fl .null s = .ok (v, rest) ∧ rest ≠ r ∧
        (∃ v' r', extract fl .null r = .ok (v', r')) ∧
        ∀ v' r', extract fl .null rest ≠ .ok (v', r') ∨ v' ≠ .arr [.uint 2] := by
  refine ⟨[0x31, 0x5B, 0x32, 0x5D], .uint 1, [0x31], [0x5B, 0x32, 0x5D], ?_, trivial, ?_, rfl,
    [0x32, 0x5D], rfl, by decide, ⟨.arr [.uint 2], [], rfl⟩, fun v' r' => ?_⟩
  · exact .num (.uint (i := [0x31])
      (.inr ⟨⟨by simp, by simp [Digit]⟩, by simp⟩) (by decide))
  · exact munch_of_notNumeric (by unfold NotNumeric Digit; omega)
  · rw [show extract fl .null [0x32, 0x5D] = .ok (.uint 2, []) from rfl]
    by_cases h : v' = .arr [.uint 2]
    · subst h; exact .inl (by simp)
    · exact .inr h

/-- reading `n` values, one after the other -/
def readMany (fl : Floats F) : Nat → Bytes → Outcome (List (Json F) × Bytes)
  | 0, s => .ok ([], s)
  | n + 1, s =>
    match extract fl .null s with
    | .ok (v, r) =>
      match readMany fl n r with
      | .ok (vs, r') => .ok (v :: vs, r')
      | o => o
    | .assertFail => .assertFail
    | .outOfRange => .outOfRange
    | .throws k => .throws k
    | .ub => .ub
    | .diverges => .diverges

/-- values one after the other in a stream, each number followed by a byte of white space -/
inductive Sequence (fl : Floats F) : Bytes → List (Json F) → Prop
  | nil : Sequence fl [] []
  | value {w t s : Bytes} {raw : Json F} {vs : List (Json F)} : Ws w → Value fl t raw →
      ¬ IsNumber raw → Sequence fl s vs → Sequence fl (w ++ t ++ s) (raw :: vs)
  | number {w t s : Bytes} {c : Nat} {raw : Json F} {vs : List (Json F)} : Ws w → Value fl t raw →
      IsNumber raw → Ws [c] → Sequence fl s vs → Sequence fl (w ++ t ++ c :: s) (raw :: vs)

/-- **C111** Values one after the other are read one after the other, however many there are, if every number is
followed by white space. -/
theorem C111_sequence_partial (fl : Floats F) {s : Bytes} {vs : List (Json F)}
    (h : Sequence fl s vs) (rest : Bytes) :
    readMany fl vs.length (s ++ rest) = .ok (vs.map tidy, rest) := by
  induction h with
  | nil => rfl
  | value hw hv hn _hs ih =>
    rename_i w t s raw vs
    have : extract fl .null (w ++ t ++ s ++ rest) = .ok (tidy raw, s ++ rest) :=
      (C111_stream_iff fl _ _ _ _).2 ⟨[], w, t, s ++ rest, raw, .inl rfl, hw, hv,
        fun h => absurd h hn, by simp, rfl, fun h => absurd h hn, fun _ => rfl⟩
    simp only [List.length_cons, readMany, this, ih, List.map_cons]
  | number hw hv hn hc _hs ih =>
    rename_i w t s c raw vs
    have : extract fl .null (w ++ t ++ c :: s ++ rest) = .ok (tidy raw, s ++ rest) :=
      (C111_stream_iff fl _ _ _ _).2 ⟨[], w, t, c :: (s ++ rest), raw, .inl rfl, hw, hv,
        fun _ => munch_of_notNumeric (NotNumeric.ws (hc c (by simp))), by simp, rfl,
        fun _ => rfl, fun h => absurd hn h⟩
    simp only [List.length_cons, readMany, this, ih, List.map_cons]

/-- `1 null2 ` -/
example (fl : Floats F) :
    readMany fl 3 [0x31, 0x20, 0x6E, 0x75, 0x6C, 0x6C, 0x32, 0x20] =
      .ok ([.uint 1, .null, .uint 2], []) := by rfl

/-- **C111** Reading from a stream ends on every input and fails by the two exceptions only. -/
theorem C111_terminates (fl : Floats F) (old : Json F) (s : Bytes) :
    (∃ x, extract fl old s = .ok x) ∨ extract fl old s = .throws "parse_error.101" ∨
      extract fl old s = .throws "out_of_range.406" := parse_outcome fl false old s

/-- an empty stream -/
example (fl : Floats F) : extract fl .null [] = .throws "parse_error.101" := by rfl

end Verif.Json
