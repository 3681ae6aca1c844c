import Verif.Json.WriterModel
import Verif.Json.LexLemmas

/-!
# Lemmas about the writing of strings
-/

namespace Verif.Json
open Spec

/-! ## What is to be written -/

namespace Spec

/-- the short escapes the writer uses: the character and the letter after the backslash -/
def shortEscapes : List (Nat × Nat) :=
  [(0x08, 0x62), (0x09, 0x74), (0x0A, 0x6E), (0x0C, 0x66), (0x0D, 0x72), (0x22, 0x22), (0x5C, 0x5C)]

/-- `x` begins a character -/
def Begins (x : Bytes) : Prop := ∃ c, Scalar c ∧ x <+: utf8 c

/-- a text cut into characters and maximal parts that are none (Unicode, section 3.9, "U+FFFD
substitution of maximal subparts"): the beginning of a character, as long as it goes, or a byte that
begins none -/
inductive Segs : Bytes → List (Option Nat) → Prop
  | nil : Segs [] []
  | char {c : Nat} {s : Bytes} {gs : List (Option Nat)} : Scalar c → Segs s gs →
      Segs (utf8 c ++ s) (some c :: gs)
  | cut {j s : Bytes} {gs : List (Option Nat)} : j ≠ [] → Begins j → (∀ c, Scalar c → utf8 c ≠ j) →
      (∀ b s', s = b :: s' → ¬ Begins (j ++ [b])) → Segs s gs → Segs (j ++ s) (none :: gs)
  | byte {b : Nat} {s : Bytes} {gs : List (Option Nat)} : ¬ Begins [b] → Segs s gs →
      Segs (b :: s) (none :: gs)

/-- a hexadecimal digit, in lower case -/
def hexd (v : Nat) : Nat := if v < 10 then 0x30 + v else 0x61 + (v - 10)

/-- `\uXXXX` -/
def uEscape (v : Nat) : Bytes :=
  [0x5C, 0x75, hexd (v / 4096), hexd (v / 256 % 16), hexd (v / 16 % 16), hexd (v % 16)]

/-- the text of a character in a string: a short escape if there is one; otherwise `\uXXXX`, or two of
them, for a control character and, if only ASCII is wanted, for DEL and everything above; otherwise
the character itself -/
def escaped (ascii : Bool) (c : Nat) : Bytes :=
  match shortEscapes.lookup c with
  | some l => [0x5C, l]
  | none =>
    if c < 0x20 ∨ (ascii = true ∧ 0x7F ≤ c) then
      if c < 0x10000 then uEscape c
      else uEscape (0xD800 + (c - 0x10000) / 0x400) ++ uEscape (0xDC00 + (c - 0x10000) % 0x400)
    else utf8 c

/-- the text of a string of characters -/
def escapedAll (ascii : Bool) : List Nat → Bytes
  | [] => []
  | c :: cs => escaped ascii c ++ escapedAll ascii cs

/-- the characters to be written, given the parts of the string: `none` is the exception -/
def wanted : Handler → List (Option Nat) → Option (List Nat)
  | _, [] => some []
  | h, some c :: gs => (wanted h gs).map (c :: ·)
  | .strict, none :: _ => none
  | .ignore, none :: gs => wanted .ignore gs
  | .replace, none :: gs => (wanted .replace gs).map (0xFFFD :: ·)

end Spec

/-! ## The automaton -/

theorem nx0 : ∀ b, b < 256 → utf8d.getD (256 + utf8d.getD b 0) 0 =
    if b < 0x80 then 0 else if 0xC2 ≤ b ∧ b ≤ 0xDF then 2 else if b = 0xE0 then 4
    else if (0xE1 ≤ b ∧ b ≤ 0xEC) ∨ b = 0xEE ∨ b = 0xEF then 3 else if b = 0xED then 5
    else if b = 0xF0 then 6 else if 0xF1 ≤ b ∧ b ≤ 0xF3 then 7 else if b = 0xF4 then 8 else 1 := by
  decide +kernel

theorem cp0 : ∀ b, b < 256 → (0xFF >>> utf8d.getD b 0) &&& b =
    if b < 0x80 then b else if 0xC2 ≤ b ∧ b ≤ 0xDF then b - 0xC0
    else if 0xE0 ≤ b ∧ b ≤ 0xEF then b - 0xE0 else if 0xF0 ≤ b ∧ b ≤ 0xF4 then b - 0xF0
    else (0xFF >>> utf8d.getD b 0) &&& b := by decide +kernel

/-- the range of the next byte in each of the other states, and the state after it -/
def follow (st : Nat) : Nat × Nat × Nat :=
  if st = 2 then (0x80, 0xBF, 0) else if st = 3 then (0x80, 0xBF, 2)
  else if st = 4 then (0xA0, 0xBF, 2) else if st = 5 then (0x80, 0x9F, 2)
  else if st = 6 then (0x90, 0xBF, 3) else if st = 7 then (0x80, 0xBF, 3) else (0x80, 0x8F, 3)

theorem nx : ∀ st, st < 9 → 2 ≤ st → ∀ b, b < 256 →
    utf8d.getD (256 + st * 16 + utf8d.getD b 0) 0 =
    if (follow st).1 ≤ b ∧ b ≤ (follow st).2.1 then (follow st).2.2 else 1 := by
  decide +kernel

theorem cp_next {b cp : Nat} (h : 0x80 ≤ b ∧ b ≤ 0xBF) :
    (b &&& 0x3F) ||| (cp <<< 6) = cp * 64 + (b - 0x80) := by
  have h1 : b &&& 0x3F = b % 64 := Nat.and_two_pow_sub_one_eq_mod b 6
  rw [h1, Nat.or_comm, ← Nat.shiftLeft_add_eq_or_of_lt (i := 6) (by omega), Nat.shiftLeft_eq]
  omega

/-- the bytes read of a character, the state and the code point so far -/
inductive Pre : Bytes → Nat → Nat → Prop
  | start {cp : Nat} : Pre [] 0 cp
  | two {a : Nat} : 0xC2 ≤ a → a ≤ 0xDF → Pre [a] 2 (a - 0xC0)
  | e0 : Pre [0xE0] 4 0
  | three {a : Nat} : (0xE1 ≤ a ∧ a ≤ 0xEC) ∨ a = 0xEE ∨ a = 0xEF → Pre [a] 3 (a - 0xE0)
  | ed : Pre [0xED] 5 0xD
  | f0 : Pre [0xF0] 6 0
  | four {a : Nat} : 0xF1 ≤ a → a ≤ 0xF3 → Pre [a] 7 (a - 0xF0)
  | f4 : Pre [0xF4] 8 4
  | three2 {a b : Nat} : 0xE0 ≤ a → a ≤ 0xEF → 0x80 ≤ b → b ≤ 0xBF → (a = 0xE0 → 0xA0 ≤ b) →
      (a = 0xED → b ≤ 0x9F) → Pre [a, b] 2 ((a - 0xE0) * 64 + (b - 0x80))
  | four2 {a b : Nat} : 0xF0 ≤ a → a ≤ 0xF4 → 0x80 ≤ b → b ≤ 0xBF → (a = 0xF0 → 0x90 ≤ b) →
      (a = 0xF4 → b ≤ 0x8F) → Pre [a, b] 3 ((a - 0xF0) * 64 + (b - 0x80))
  | four3 {a b c : Nat} : 0xF0 ≤ a → a ≤ 0xF4 → 0x80 ≤ b → b ≤ 0xBF → (a = 0xF0 → 0x90 ≤ b) →
      (a = 0xF4 → b ≤ 0x8F) → 0x80 ≤ c → c ≤ 0xBF →
      Pre [a, b, c] 2 (((a - 0xF0) * 64 + (b - 0x80)) * 64 + (c - 0x80))

/-- the bytes of a character by their number -/
theorem utf8_cases {c : Nat} (h : Scalar c) :
    (c < 0x80 ∧ utf8 c = [c]) ∨
    (∃ a b, utf8 c = [a, b] ∧ 0xC2 ≤ a ∧ a ≤ 0xDF ∧ 0x80 ≤ b ∧ b ≤ 0xBF ∧
      c = (a - 0xC0) * 64 + (b - 0x80)) ∨
    (∃ a b d, utf8 c = [a, b, d] ∧ 0xE0 ≤ a ∧ a ≤ 0xEF ∧ 0x80 ≤ b ∧ b ≤ 0xBF ∧
      (a = 0xE0 → 0xA0 ≤ b) ∧ (a = 0xED → b ≤ 0x9F) ∧ 0x80 ≤ d ∧ d ≤ 0xBF ∧
      c = ((a - 0xE0) * 64 + (b - 0x80)) * 64 + (d - 0x80)) ∨
    (∃ a b d e, utf8 c = [a, b, d, e] ∧ 0xF0 ≤ a ∧ a ≤ 0xF4 ∧ 0x80 ≤ b ∧ b ≤ 0xBF ∧
      (a = 0xF0 → 0x90 ≤ b) ∧ (a = 0xF4 → b ≤ 0x8F) ∧ 0x80 ≤ d ∧ d ≤ 0xBF ∧ 0x80 ≤ e ∧ e ≤ 0xBF ∧
      c = (((a - 0xF0) * 64 + (b - 0x80)) * 64 + (d - 0x80)) * 64 + (e - 0x80)) := by
  unfold Scalar at h
  unfold utf8
  by_cases h1 : c < 0x80
  · exact .inl ⟨h1, by rw [if_pos h1]⟩
  · rw [if_neg h1]
    by_cases h2 : c < 0x800
    · rw [if_pos h2]
      exact .inr (.inl ⟨_, _, rfl, by omega, by omega, by omega, by omega, by omega⟩)
    · rw [if_neg h2]
      by_cases h3 : c < 0x10000
      · rw [if_pos h3]
        exact .inr (.inr (.inl ⟨_, _, _, rfl, by omega, by omega, by omega, by omega, by omega,
          by omega, by omega, by omega, by omega⟩))
      · rw [if_neg h3]
        exact .inr (.inr (.inr ⟨_, _, _, _, rfl, by omega, by omega, by omega, by omega, by omega,
          by omega, by omega, by omega, by omega, by omega, by omega⟩))

theorem utf8_two {a b : Nat} (h1 : 0xC2 ≤ a) (h2 : a ≤ 0xDF) (h3 : 0x80 ≤ b) (h4 : b ≤ 0xBF) :
    Scalar ((a - 0xC0) * 64 + (b - 0x80)) ∧ utf8 ((a - 0xC0) * 64 + (b - 0x80)) = [a, b] := by
  refine ⟨by unfold Scalar; omega, ?_⟩
  rw [utf8, if_neg (by omega), if_pos (by omega)]
  simp only [List.cons.injEq, and_true]
  omega

theorem utf8_three {a b d : Nat} (h1 : 0xE0 ≤ a) (h2 : a ≤ 0xEF) (h3 : 0x80 ≤ b) (h4 : b ≤ 0xBF)
    (h5 : a = 0xE0 → 0xA0 ≤ b) (h6 : a = 0xED → b ≤ 0x9F) (h7 : 0x80 ≤ d) (h8 : d ≤ 0xBF) :
    Scalar (((a - 0xE0) * 64 + (b - 0x80)) * 64 + (d - 0x80)) ∧
      utf8 (((a - 0xE0) * 64 + (b - 0x80)) * 64 + (d - 0x80)) = [a, b, d] := by
  refine ⟨by unfold Scalar; omega, ?_⟩
  rw [utf8, if_neg (by omega), if_neg (by omega), if_pos (by omega)]
  simp only [List.cons.injEq, and_true]
  omega

theorem utf8_four {a b d e : Nat} (h1 : 0xF0 ≤ a) (h2 : a ≤ 0xF4) (h3 : 0x80 ≤ b) (h4 : b ≤ 0xBF)
    (h5 : a = 0xF0 → 0x90 ≤ b) (h6 : a = 0xF4 → b ≤ 0x8F) (h7 : 0x80 ≤ d) (h8 : d ≤ 0xBF)
    (h9 : 0x80 ≤ e) (h10 : e ≤ 0xBF) :
    Scalar ((((a - 0xF0) * 64 + (b - 0x80)) * 64 + (d - 0x80)) * 64 + (e - 0x80)) ∧
      utf8 ((((a - 0xF0) * 64 + (b - 0x80)) * 64 + (d - 0x80)) * 64 + (e - 0x80)) =
        [a, b, d, e] := by
  refine ⟨by unfold Scalar; omega, ?_⟩
  rw [utf8, if_neg (by omega), if_neg (by omega), if_neg (by omega)]
  simp only [List.cons.injEq, and_true]
  omega

theorem Pre.state {p : Bytes} {st cp : Nat} (h : Pre p st cp) : st < 9 ∧ st ≠ 1 ∧ (st = 0 ↔ p = []) ∧
    p.length ≤ 3 := by
  cases h <;> simp

theorem begins_one {b : Nat} (h : Begins [b]) : b < 0x80 ∨ (0xC2 ≤ b ∧ b ≤ 0xF4) := by
  obtain ⟨c, hc, ⟨t, ht⟩⟩ := h
  rcases utf8_cases hc with ⟨h1, e⟩ | ⟨x, y, e, h⟩ | ⟨x, y, z, e, h⟩ | ⟨x, y, z, w, e, h⟩ <;>
    rw [e] at ht <;> simp only [List.cons_append, List.nil_append, List.cons.injEq] at ht <;> omega

theorem begins_two {a b : Nat} (h : Begins [a, b]) :
    (0x80 ≤ b ∧ b ≤ 0xBF) ∧ 0xC2 ≤ a ∧ a ≤ 0xF4 ∧ (a = 0xE0 → 0xA0 ≤ b) ∧ (a = 0xED → b ≤ 0x9F) ∧
      (a = 0xF0 → 0x90 ≤ b) ∧ (a = 0xF4 → b ≤ 0x8F) := by
  obtain ⟨c, hc, ⟨t, ht⟩⟩ := h
  rcases utf8_cases hc with ⟨h1, e⟩ | ⟨x, y, e, h⟩ | ⟨x, y, z, e, h⟩ | ⟨x, y, z, w, e, h⟩ <;>
    rw [e] at ht <;> simp only [List.cons_append, List.nil_append, List.cons.injEq] at ht
  · simp at ht
  · omega
  · omega
  · omega

theorem begins_three {a b d : Nat} (h : Begins [a, b, d]) : 0xE0 ≤ a ∧ 0x80 ≤ d ∧ d ≤ 0xBF := by
  obtain ⟨c, hc, ⟨t, ht⟩⟩ := h
  rcases utf8_cases hc with ⟨h1, e⟩ | ⟨x, y, e, h⟩ | ⟨x, y, z, e, h⟩ | ⟨x, y, z, w, e, h⟩ <;>
    rw [e] at ht <;> simp only [List.cons_append, List.nil_append, List.cons.injEq] at ht
  · simp at ht
  · simp at ht
  · omega
  · omega

theorem begins_four {a b d f : Nat} (h : Begins [a, b, d, f]) : 0xF0 ≤ a ∧ 0x80 ≤ f ∧ f ≤ 0xBF := by
  obtain ⟨c, hc, ⟨t, ht⟩⟩ := h
  rcases utf8_cases hc with ⟨h1, e⟩ | ⟨x, y, e, h⟩ | ⟨x, y, z, e, h⟩ | ⟨x, y, z, w, e, h⟩ <;>
    rw [e] at ht <;> simp only [List.cons_append, List.nil_append, List.cons.injEq] at ht
  · simp at ht
  · simp at ht
  · simp at ht
  · omega

theorem decode_next {st cp b : Nat} (h1 : st < 9) (h2 : 2 ≤ st) (hb : b < 256) :
    ((follow st).1 ≤ b ∧ b ≤ (follow st).2.1 ∧
      decode st cp b = ((follow st).2.2, cp * 64 + (b - 0x80))) ∨
    (¬ ((follow st).1 ≤ b ∧ b ≤ (follow st).2.1) ∧ (decode st cp b).1 = 1) := by
  have hn := nx st h1 h2 b hb
  by_cases hf : (follow st).1 ≤ b ∧ b ≤ (follow st).2.1
  · rw [if_pos hf] at hn
    refine .inl ⟨hf.1, hf.2, ?_⟩
    have : 0x80 ≤ b ∧ b ≤ 0xBF := by
      revert hf
      unfold follow
      (repeat' split) <;> (simp only; omega)
    rw [decode]
    simp only [hn, if_pos (show st ≠ 0 by omega), cp_next this]
  · rw [if_neg hf] at hn
    exact .inr ⟨hf, hn⟩

/-- a byte ends a character, cannot go on, or goes on -/
theorem pre_step {p : Bytes} {st cp b : Nat} (h : Pre p st cp) (hb : b < 256) :
    ((decode st cp b).1 = 0 ∧ Scalar (decode st cp b).2 ∧ utf8 (decode st cp b).2 = p ++ [b]) ∨
    ((decode st cp b).1 = 1 ∧ ¬ Begins (p ++ [b])) ∨
    (2 ≤ (decode st cp b).1 ∧ Pre (p ++ [b]) (decode st cp b).1 (decode st cp b).2) := by
  have hd := fun (st cp : Nat) h1 h2 => decode_next (st := st) (cp := cp) (b := b) h1 h2 hb
  cases h with
  | start =>
    have hn := nx0 b hb
    have hc := cp0 b hb
    have e : decode 0 cp b =
        (utf8d.getD (256 + utf8d.getD b 0) 0, (0xFF >>> utf8d.getD b 0) &&& b) := by
      simp [decode]
    rw [e, List.nil_append]
    generalize utf8d.getD (256 + utf8d.getD b 0) 0 = n at hn ⊢
    generalize (0xFF >>> utf8d.getD b 0) &&& b = c at hc ⊢
    simp only
    by_cases h1 : b < 0x80
    · rw [if_pos h1] at hn hc
      subst hn; subst hc
      exact .inl ⟨rfl, by unfold Scalar; omega, by rw [utf8, if_pos h1]⟩
    rw [if_neg h1] at hn hc
    by_cases h2 : 0xC2 ≤ b ∧ b ≤ 0xDF
    · rw [if_pos h2] at hn hc
      rw [hn, hc]
      exact .inr (.inr ⟨by omega, .two h2.1 h2.2⟩)
    rw [if_neg h2] at hn hc
    by_cases h3 : b = 0xE0
    · rw [if_pos h3] at hn; rw [if_pos (by omega)] at hc
      subst h3; subst hn; subst hc
      exact .inr (.inr ⟨by omega, .e0⟩)
    rw [if_neg h3] at hn
    by_cases h4 : (0xE1 ≤ b ∧ b ≤ 0xEC) ∨ b = 0xEE ∨ b = 0xEF
    · rw [if_pos h4] at hn; rw [if_pos (by omega)] at hc
      rw [hn, hc]
      exact .inr (.inr ⟨by omega, .three h4⟩)
    rw [if_neg h4] at hn
    by_cases h5 : b = 0xED
    · rw [if_pos h5] at hn; rw [if_pos (by omega)] at hc
      subst h5; subst hn; subst hc
      exact .inr (.inr ⟨by omega, .ed⟩)
    rw [if_neg h5] at hn
    by_cases h6 : b = 0xF0
    · rw [if_pos h6] at hn; rw [if_neg (by omega), if_pos (by omega)] at hc
      subst h6; subst hn; subst hc
      exact .inr (.inr ⟨by omega, .f0⟩)
    rw [if_neg h6] at hn
    by_cases h7 : 0xF1 ≤ b ∧ b ≤ 0xF3
    · rw [if_pos h7] at hn; rw [if_neg (by omega), if_pos (by omega)] at hc
      rw [hn, hc]
      exact .inr (.inr ⟨by omega, .four h7.1 h7.2⟩)
    rw [if_neg h7] at hn
    by_cases h8 : b = 0xF4
    · rw [if_pos h8] at hn; rw [if_neg (by omega), if_pos (by omega)] at hc
      subst h8; subst hn; subst hc
      exact .inr (.inr ⟨by omega, .f4⟩)
    rw [if_neg h8] at hn
    subst hn
    exact .inr (.inl ⟨rfl, fun hB => by have := begins_one hB; omega⟩)
  | two h1 h2 =>
    rename_i a
    rcases hd 2 (a - 0xC0) (by omega) (by omega) with ⟨h3, h4, e⟩ | ⟨h3, e⟩
    · simp [follow] at h3 h4
      rw [e]
      have := utf8_two h1 h2 h3 h4
      exact .inl ⟨rfl, this.1, this.2⟩
    · simp [follow] at h3
      exact .inr (.inl ⟨e, fun hB => by have := begins_two hB; omega⟩)
  | e0 =>
    rcases hd 4 0 (by omega) (by omega) with ⟨h3, h4, e⟩ | ⟨h3, e⟩
    · simp [follow] at h3 h4
      rw [e]
      exact .inr (.inr ⟨by simp [follow], .three2 (a := 0xE0) (by omega) (by omega) (by omega) h4
        (by omega) (by omega)⟩)
    · simp [follow] at h3
      exact .inr (.inl ⟨e, fun hB => by have := begins_two hB; omega⟩)
  | three h1 =>
    rename_i a
    rcases hd 3 (a - 0xE0) (by omega) (by omega) with ⟨h3, h4, e⟩ | ⟨h3, e⟩
    · simp [follow] at h3 h4
      rw [e]
      exact .inr (.inr ⟨by simp [follow], .three2 (by omega) (by omega) (by omega) h4
        (by omega) (by omega)⟩)
    · simp [follow] at h3
      exact .inr (.inl ⟨e, fun hB => by have := begins_two hB; omega⟩)
  | ed =>
    rcases hd 5 0xD (by omega) (by omega) with ⟨h3, h4, e⟩ | ⟨h3, e⟩
    · simp [follow] at h3 h4
      rw [e]
      exact .inr (.inr ⟨by simp [follow], .three2 (a := 0xED) (by omega) (by omega) (by omega)
        (by omega) (by omega) (by omega)⟩)
    · simp [follow] at h3
      exact .inr (.inl ⟨e, fun hB => by have := begins_two hB; omega⟩)
  | f0 =>
    rcases hd 6 0 (by omega) (by omega) with ⟨h3, h4, e⟩ | ⟨h3, e⟩
    · simp [follow] at h3 h4
      rw [e]
      exact .inr (.inr ⟨by simp [follow], .four2 (a := 0xF0) (by omega) (by omega) (by omega)
        (by omega) (by omega) (by omega)⟩)
    · simp [follow] at h3
      exact .inr (.inl ⟨e, fun hB => by have := begins_two hB; omega⟩)
  | four h1 h2 =>
    rename_i a
    rcases hd 7 (a - 0xF0) (by omega) (by omega) with ⟨h3, h4, e⟩ | ⟨h3, e⟩
    · simp [follow] at h3 h4
      rw [e]
      exact .inr (.inr ⟨by simp [follow], .four2 (by omega) (by omega) (by omega) (by omega)
        (by omega) (by omega)⟩)
    · simp [follow] at h3
      exact .inr (.inl ⟨e, fun hB => by have := begins_two hB; omega⟩)
  | f4 =>
    rcases hd 8 4 (by omega) (by omega) with ⟨h3, h4, e⟩ | ⟨h3, e⟩
    · simp [follow] at h3 h4
      rw [e]
      exact .inr (.inr ⟨by simp [follow], .four2 (a := 0xF4) (by omega) (by omega) (by omega)
        (by omega) (by omega) (by omega)⟩)
    · simp [follow] at h3
      exact .inr (.inl ⟨e, fun hB => by have := begins_two hB; omega⟩)
  | three2 h1 h2 h3 h4 h5 h6 =>
    rename_i a x
    rcases hd 2 ((a - 0xE0) * 64 + (x - 0x80)) (by omega) (by omega) with ⟨h7, h8, e⟩ | ⟨h7, e⟩
    · simp [follow] at h7 h8
      rw [e]
      have := utf8_three h1 h2 h3 h4 h5 h6 h7 h8
      exact .inl ⟨rfl, this.1, this.2⟩
    · simp [follow] at h7
      exact .inr (.inl ⟨e, fun hB => by have := begins_three hB; omega⟩)
  | four2 h1 h2 h3 h4 h5 h6 =>
    rename_i a x
    rcases hd 3 ((a - 0xF0) * 64 + (x - 0x80)) (by omega) (by omega) with ⟨h7, h8, e⟩ | ⟨h7, e⟩
    · simp [follow] at h7 h8
      rw [e]
      exact .inr (.inr ⟨by simp [follow], .four3 h1 h2 h3 h4 h5 h6 h7 h8⟩)
    · simp [follow] at h7
      exact .inr (.inl ⟨e, fun hB => by have := begins_three hB; omega⟩)
  | four3 h1 h2 h3 h4 h5 h6 h7 h8 =>
    rename_i a x y
    rcases hd 2 (((a - 0xF0) * 64 + (x - 0x80)) * 64 + (y - 0x80)) (by omega) (by omega) with
      ⟨h9, h10, e⟩ | ⟨h9, e⟩
    · simp [follow] at h9 h10
      rw [e]
      have := utf8_four h1 h2 h3 h4 h5 h6 h7 h8 h9 h10
      exact .inl ⟨rfl, this.1, this.2⟩
    · simp [follow] at h9
      exact .inr (.inl ⟨e, fun hB => by have := begins_four hB; omega⟩)

/-- what has been read is the beginning of a character, and not all of it -/
theorem pre_begins {p : Bytes} {st cp : Nat} (h : Pre p st cp) :
    Begins p ∧ ∀ c, Scalar c → utf8 c ≠ p := by
  have not : ∀ c, Scalar c → utf8 c ≠ p := by
    intro c hc e
    rcases utf8_cases hc with ⟨h1, e'⟩ | ⟨x, y, e', h'⟩ | ⟨x, y, z, e', h'⟩ | ⟨x, y, z, w, e', h'⟩ <;>
      rw [e] at e' <;> subst e' <;> cases h <;> omega
  refine ⟨?_, not⟩
  cases h with
  | start => exact ⟨0, by unfold Scalar; omega, List.nil_prefix⟩
  | two h1 h2 =>
    have := utf8_two h1 h2 (b := 0x80) (by omega) (by omega)
    exact ⟨_, this.1, by rw [this.2]; exact ⟨[0x80], rfl⟩⟩
  | e0 =>
    have := utf8_three (a := 0xE0) (b := 0xA0) (d := 0x80) (by omega) (by omega) (by omega) (by omega)
      (by omega) (by omega) (by omega) (by omega)
    exact ⟨_, this.1, by rw [this.2]; exact ⟨[0xA0, 0x80], rfl⟩⟩
  | three h1 =>
    rename_i a
    have := utf8_three (a := a) (b := 0x80) (d := 0x80) (by omega) (by omega) (by omega) (by omega)
      (by omega) (by omega) (by omega) (by omega)
    exact ⟨_, this.1, by rw [this.2]; exact ⟨[0x80, 0x80], rfl⟩⟩
  | ed =>
    have := utf8_three (a := 0xED) (b := 0x80) (d := 0x80) (by omega) (by omega) (by omega) (by omega)
      (by omega) (by omega) (by omega) (by omega)
    exact ⟨_, this.1, by rw [this.2]; exact ⟨[0x80, 0x80], rfl⟩⟩
  | f0 =>
    have := utf8_four (a := 0xF0) (b := 0x90) (d := 0x80) (e := 0x80) (by omega) (by omega) (by omega)
      (by omega) (by omega) (by omega) (by omega) (by omega) (by omega) (by omega)
    exact ⟨_, this.1, by rw [this.2]; exact ⟨[0x90, 0x80, 0x80], rfl⟩⟩
  | four h1 h2 =>
    rename_i a
    have := utf8_four (a := a) (b := 0x80) (d := 0x80) (e := 0x80) (by omega) (by omega) (by omega)
      (by omega) (by omega) (by omega) (by omega) (by omega) (by omega) (by omega)
    exact ⟨_, this.1, by rw [this.2]; exact ⟨[0x80, 0x80, 0x80], rfl⟩⟩
  | f4 =>
    have := utf8_four (a := 0xF4) (b := 0x80) (d := 0x80) (e := 0x80) (by omega) (by omega) (by omega)
      (by omega) (by omega) (by omega) (by omega) (by omega) (by omega) (by omega)
    exact ⟨_, this.1, by rw [this.2]; exact ⟨[0x80, 0x80, 0x80], rfl⟩⟩
  | three2 h1 h2 h3 h4 h5 h6 =>
    have := utf8_three h1 h2 h3 h4 h5 h6 (d := 0x80) (by omega) (by omega)
    exact ⟨_, this.1, by rw [this.2]; exact ⟨[0x80], rfl⟩⟩
  | four2 h1 h2 h3 h4 h5 h6 =>
    have := utf8_four h1 h2 h3 h4 h5 h6 (d := 0x80) (e := 0x80) (by omega) (by omega) (by omega)
      (by omega)
    exact ⟨_, this.1, by rw [this.2]; exact ⟨[0x80, 0x80], rfl⟩⟩
  | four3 h1 h2 h3 h4 h5 h6 h7 h8 =>
    have := utf8_four h1 h2 h3 h4 h5 h6 h7 h8 (e := 0x80) (by omega) (by omega)
    exact ⟨_, this.1, by rw [this.2]; exact ⟨[0x80], rfl⟩⟩

/-! ## The loop -/

theorem hexEscape_eq {n : Nat} (h : n < 65536) : hexEscape n = uEscape n := by
  have hd : ∀ v, hexDigit v = hexd v := by
    intro v
    unfold hexDigit hexd
    split <;> omega
  rw [hexEscape, uEscape, Nat.mod_eq_of_lt h]
  simp only [hd]

theorem replacement_eq (ascii : Bool) : replacement ascii = escaped ascii 0xFFFD := by
  cases ascii <;> decide +kernel

theorem escaped_length (ascii : Bool) (c : Nat) : (escaped ascii c).length ≤ 12 := by
  unfold escaped
  split
  · simp
  · split
    · split <;> simp [uEscape]
    · unfold utf8
      (repeat' split) <;> simp

theorem high_eq {c : Nat} (h : 0x10000 ≤ c) :
    0xD7C0 + (c >>> 10) = 0xD800 + (c - 0x10000) / 0x400 := by
  rw [Nat.shiftRight_eq_div_pow]
  omega

theorem low_eq {c : Nat} (h : 0x10000 ≤ c) :
    0xDC00 + (c &&& 0x3FF) = 0xDC00 + (c - 0x10000) % 0x400 := by
  have : c &&& 0x3FF = c % 1024 := Nat.and_two_pow_sub_one_eq_mod c 10
  rw [this]
  omega

/-- what is in the buffer after a character -/
theorem escText_eq {ascii : Bool} {c b : Nat} {p : Bytes} (hc : Scalar c) (h : utf8 c = p ++ [b]) :
    (if ascii then [] else p) ++ (escText ascii c b).1 = escaped ascii c ∧
      (escText ascii c b).2 ≤ 1 := by
  have hb : (c < 0x80 → p = [] ∧ b = c) := by
    intro hlt
    rw [utf8, if_pos hlt] at h
    cases p with
    | nil => exact ⟨rfl, by simpa using h.symm⟩
    | cons x xs => cases xs <;> simp at h
  unfold escText escaped shortEscapes
  by_cases hs : c < 0x80
  · obtain ⟨rfl, rfl⟩ := hb hs
    have : (if ascii = true then ([] : Bytes) else []) = [] := by split <;> rfl
    rw [this, List.nil_append]
    clear this hb h
    by_cases h1 : b = 0x08
    · subst h1; simp [List.lookup]
    by_cases h2 : b = 0x09
    · subst h2; simp [List.lookup]
    by_cases h3 : b = 0x0A
    · subst h3; simp [List.lookup]
    by_cases h4 : b = 0x0C
    · subst h4; simp [List.lookup]
    by_cases h5 : b = 0x0D
    · subst h5; simp [List.lookup]
    by_cases h6 : b = 0x22
    · subst h6; simp [List.lookup]
    by_cases h7 : b = 0x5C
    · subst h7; simp [List.lookup]
    rw [if_neg h1, if_neg h2, if_neg h3, if_neg h4, if_neg h5, if_neg h6, if_neg h7]
    have hl : ([(0x08, 0x62), (0x09, 0x74), (0x0A, 0x6E), (0x0C, 0x66), (0x0D, 0x72), (0x22, 0x22),
        (0x5C, 0x5C)] : List (Nat × Nat)).lookup b = none := by
      simp [List.lookup, beq_eq_false_iff_ne.mpr h1, beq_eq_false_iff_ne.mpr h2,
        beq_eq_false_iff_ne.mpr h3, beq_eq_false_iff_ne.mpr h4, beq_eq_false_iff_ne.mpr h5,
        beq_eq_false_iff_ne.mpr h6, beq_eq_false_iff_ne.mpr h7]
    rw [hl]
    simp only
    by_cases h8 : b < 0x20 ∨ (ascii = true ∧ 0x7F ≤ b)
    · rw [if_pos h8, if_pos (show b ≤ 0x1F ∨ (ascii = true ∧ 0x7F ≤ b) from h8.imp (fun _ => by omega) id),
        if_pos (show b ≤ 0xFFFF by omega), if_pos (show b < 0x10000 by omega),
        hexEscape_eq (show b < 65536 by omega)]
      exact ⟨rfl, by simp⟩
    · rw [if_neg h8, if_neg (show ¬ (b ≤ 0x1F ∨ (ascii = true ∧ 0x7F ≤ b)) from
        fun h9 => h8 (h9.imp (fun _ => by omega) id)), utf8,
        if_pos hs]
      exact ⟨rfl, by simp⟩
  · have hn : ∀ k, k < 0x80 → c ≠ k := by omega
    rw [if_neg (hn 8 (by omega)), if_neg (hn 9 (by omega)), if_neg (hn 0xA (by omega)),
      if_neg (hn 0xC (by omega)), if_neg (hn 0xD (by omega)), if_neg (hn 0x22 (by omega)),
      if_neg (hn 0x5C (by omega))]
    have hl : ([(0x08, 0x62), (0x09, 0x74), (0x0A, 0x6E), (0x0C, 0x66), (0x0D, 0x72), (0x22, 0x22),
        (0x5C, 0x5C)] : List (Nat × Nat)).lookup c = none := by
      simp [List.lookup, beq_eq_false_iff_ne.mpr (hn 8 (by omega)),
        beq_eq_false_iff_ne.mpr (hn 9 (by omega)), beq_eq_false_iff_ne.mpr (hn 0xA (by omega)),
        beq_eq_false_iff_ne.mpr (hn 0xC (by omega)), beq_eq_false_iff_ne.mpr (hn 0xD (by omega)),
        beq_eq_false_iff_ne.mpr (hn 0x22 (by omega)), beq_eq_false_iff_ne.mpr (hn 0x5C (by omega))]
    rw [hl]
    simp only
    cases ascii with
    | false =>
      rw [if_neg (show ¬ (c < 0x20 ∨ (false = true ∧ 0x7F ≤ c)) by simp; omega),
        if_neg (show ¬ (c ≤ 0x1F ∨ (false = true ∧ 0x7F ≤ c)) by simp; omega), h]
      exact ⟨by simp, by simp⟩
    | true =>
      rw [if_pos (show (c < 0x20 ∨ (true = true ∧ 0x7F ≤ c)) from .inr ⟨rfl, by omega⟩),
        if_pos (show (c ≤ 0x1F ∨ (true = true ∧ 0x7F ≤ c)) from .inr ⟨rfl, by omega⟩)]
      by_cases h9 : c < 0x10000
      · rw [if_pos h9, if_pos (show c ≤ 0xFFFF by omega), hexEscape_eq (show c < 65536 by omega)]
        exact ⟨List.nil_append _, Nat.le_refl 1⟩
      · have hlt : c < 0x110000 := by unfold Scalar at hc; omega
        rw [if_neg h9, if_neg (show ¬ c ≤ 0xFFFF by omega), high_eq (by omega), low_eq (by omega),
          hexEscape_eq (by omega), hexEscape_eq (by omega)]
        exact ⟨List.nil_append _, Nat.le_refl 1⟩

/-- what the rest of a string is written as -/
def rest (h : Handler) (ascii : Bool) (o : Bytes) (gs : List (Option Nat)) : Outcome Bytes :=
  match wanted h gs with
  | some cs => .ok (o ++ escapedAll ascii cs)
  | none => .throws "type_error.316"

theorem rest_some (h : Handler) (ascii : Bool) (o : Bytes) (c : Nat) (gs : List (Option Nat)) :
    rest h ascii o (some c :: gs) = rest h ascii (o ++ escaped ascii c) gs := by
  unfold rest
  have : wanted h (some c :: gs) = (wanted h gs).map (c :: ·) := by cases h <;> simp [wanted]
  rw [this]
  cases wanted h gs <;> simp [escapedAll]

theorem rest_replace (ascii : Bool) (o : Bytes) (gs : List (Option Nat)) :
    rest .replace ascii o (none :: gs) = rest .replace ascii (o ++ escaped ascii 0xFFFD) gs := by
  unfold rest
  have : wanted .replace (none :: gs) = (wanted .replace gs).map (0xFFFD :: ·) := by simp [wanted]
  rw [this]
  cases wanted .replace gs <;> simp [escapedAll]

theorem flush_eq (e : Esc) :
    e.flush.state = e.state ∧ e.flush.codep = e.codep ∧ e.flush.buf.length ≤ 499 ∧
      e.flush.out ++ e.flush.buf = e.out ++ e.buf := by
  unfold Esc.flush
  split
  · simp
  · exact ⟨rfl, rfl, by omega, rfl⟩

theorem escLoop_eq (h : Handler) (ascii : Bool)
    (hex : h = .strict → ∀ s : Bytes, (∀ b ∈ s, b < 256) → ∃ gs, Segs s gs) :
    ∀ (n : Nat) (p s acc : Bytes) (e : Esc), Pre p e.state e.codep → (∀ b ∈ s, b < 256) →
      e.undumped = p.length → e.buf = acc ++ (if ascii then [] else p) → e.last = acc.length →
      acc.length ≤ 499 → 2 * s.length + (if p = [] then 0 else 1) < n →
      ∃ gs, Segs (p ++ s) gs ∧ escLoop h ascii n e s = rest h ascii (e.out ++ acc) gs := by
  intro n
  induction n with
  | zero => intro p s acc e _ _ _ _ _ _ hm; omega
  | succ n ih =>
    intro p s acc e hp hs hu hb hl ha hm
    have hpl : p.length ≤ 3 := hp.state.2.2.2
    have hst := hp.state.2.2.1
    cases s with
    | nil =>
      rw [escLoop.eq_def]
      simp only
      by_cases hp0 : p = []
      · subst hp0
        rw [if_pos (hst.mpr rfl)]
        refine ⟨[], .nil, ?_⟩
        have : (if ascii = true then ([] : Bytes) else []) = [] := by split <;> rfl
        rw [hb, this]
        simp [rest, wanted, escapedAll]
      · rw [if_neg (fun h0 => hp0 (hst.mp h0))]
        have hB := pre_begins hp
        refine ⟨[none], .cut hp0 hB.1 hB.2 (by simp) .nil, ?_⟩
        have htk : e.buf.take e.last = acc := by rw [hb, hl, List.take_left]
        cases h with
        | strict => rfl
        | ignore => simp [rest, wanted, escapedAll, htk]
        | replace => simp [rest, wanted, escapedAll, htk, replacement_eq]
    | cons b s =>
      have hb256 := hs b (by simp)
      have hs' : ∀ x ∈ s, x < 256 := fun x hx => hs x (by simp [hx])
      rw [escLoop.eq_def]
      simp only
      rcases pre_step hp hb256 with ⟨h0, hsc, hu8⟩ | ⟨h1, hnb⟩ | ⟨h2, hpre⟩
      · -- a character is complete
        have ht := escText_eq (ascii := ascii) hsc hu8
        have hlen := escaped_length ascii (decode e.state e.codep b).2
        have hbl : e.buf ++ (escText ascii (decode e.state e.codep b).2 b).1 =
            acc ++ escaped ascii (decode e.state e.codep b).2 := by
          rw [hb, List.append_assoc, ht.1]
        have hbl' := congrArg List.length hbl
        simp only [List.length_append] at hbl'
        unfold escByte
        simp only [h0, if_true, Esc.put]
        rw [if_pos (by omega)]
        simp only
        generalize hE : (⟨0, (decode e.state e.codep b).2,
            e.buf ++ (escText ascii (decode e.state e.codep b).2 b).1, e.last, e.undumped, e.out⟩ : Esc) = E
        obtain ⟨f1, f2, f3, f4⟩ := flush_eq E
        obtain ⟨gs, hgs, he⟩ := ih [] s E.flush.buf
          { E.flush with last := E.flush.buf.length, undumped := 0 }
          (by simp only [show E.flush.state = 0 by rw [f1, ← hE]]; exact .start) hs' rfl (by simp) rfl f3
          (by simp only [List.length_cons] at hm; simp; omega)
        refine ⟨some (decode e.state e.codep b).2 :: gs, ?_, ?_⟩
        · have : p ++ b :: s = utf8 (decode e.state e.codep b).2 ++ s := by
            rw [hu8]; simp
          rw [this]
          exact .char hsc hgs
        · rw [he, rest_some]
          simp only [f4]
          rw [← hE]
          simp only [hbl, List.append_assoc]
      · -- no character
        have hd := h1
        by_cases hp0 : p = []
        · subst hp0
          have hu0 : e.undumped = 0 := by simpa using hu
          have hbuf : e.buf = acc := by rw [hb]; split <;> simp
          cases h with
          | strict =>
            obtain ⟨gs, hgs⟩ := hex rfl s hs'
            refine ⟨none :: gs, .byte hnb hgs, ?_⟩
            unfold escByte
            simp [h1, rest, wanted]
          | ignore =>
            obtain ⟨gs, hgs, he⟩ := ih [] s acc
              ⟨0, (decode e.state e.codep b).2, e.buf.take e.last, e.last, 0, e.out⟩ .start hs' rfl
              (by simp [hbuf, hl]) hl ha (by simp only [List.length_cons] at hm; simp; omega)
            refine ⟨none :: gs, .byte hnb hgs, ?_⟩
            unfold escByte
            simp only [h1, hu0]
            simp only [Nat.lt_irrefl, if_false, Nat.one_ne_zero, if_true]
            exact he
          | replace =>
            have hlr := escaped_length ascii 0xFFFD
            rw [← replacement_eq] at hlr
            generalize hE : (⟨1, (decode e.state e.codep b).2,
              e.buf.take e.last ++ replacement ascii, e.last, e.undumped, e.out⟩ : Esc) = E
            obtain ⟨f1, f2, f3, f4⟩ := flush_eq E
            obtain ⟨gs, hgs, he⟩ := ih [] s E.flush.buf
              { E.flush with last := E.flush.buf.length, undumped := 0, state := 0 }
              .start hs' rfl (by simp) rfl f3
              (by simp only [List.length_cons] at hm; simp; omega)
            refine ⟨none :: gs, .byte hnb hgs, ?_⟩
            unfold escByte
            simp only [h1, Nat.one_ne_zero, if_false, if_true, Esc.put]
            rw [if_pos (by simp only [List.length_take]; omega)]
            simp only [hE]
            simp only [hu0, Nat.lt_irrefl, if_false]
            rw [he, rest_replace]
            simp only [f4]
            rw [← hE]
            simp only [hbuf, hl, List.take_length, replacement_eq, List.append_assoc]
        · have hB := pre_begins hp
          have hu0 : 0 < e.undumped := by rw [hu]; exact List.length_pos_iff.mpr hp0
          have htk : e.buf.take e.last = acc := by rw [hb, hl, List.take_left]
          have hcut : ∀ gs, Segs (b :: s) gs → Segs (p ++ b :: s) (none :: gs) := fun gs hg =>
            .cut hp0 hB.1 hB.2 (by rintro b' s' ⟨⟩; exact hnb) hg
          rw [if_neg hp0] at hm
          cases h with
          | strict =>
            obtain ⟨gs, hgs⟩ := hex rfl (b :: s) hs
            refine ⟨none :: gs, hcut gs hgs, ?_⟩
            unfold escByte
            simp [h1, rest, wanted]
          | ignore =>
            obtain ⟨gs, hgs, he⟩ := ih [] (b :: s) acc
              ⟨0, (decode e.state e.codep b).2, e.buf.take e.last, e.last, 0, e.out⟩ .start hs rfl
              (by simp [htk]) hl ha (by simp; simp at hm; omega)
            refine ⟨none :: gs, hcut gs hgs, ?_⟩
            unfold escByte
            simp only [h1, hu0]
            simp only [if_false, Nat.one_ne_zero, if_true]
            exact he
          | replace =>
            have hlr := escaped_length ascii 0xFFFD
            rw [← replacement_eq] at hlr
            generalize hE : (⟨1, (decode e.state e.codep b).2,
              e.buf.take e.last ++ replacement ascii, e.last, e.undumped, e.out⟩ : Esc) = E
            obtain ⟨f1, f2, f3, f4⟩ := flush_eq E
            obtain ⟨gs, hgs, he⟩ := ih [] (b :: s) E.flush.buf
              { E.flush with last := E.flush.buf.length, undumped := 0, state := 0 }
              .start hs rfl (by simp) rfl f3
              (by simp; simp at hm; omega)
            refine ⟨none :: gs, hcut gs hgs, ?_⟩
            unfold escByte
            simp only [h1, Nat.one_ne_zero, if_false, if_true, Esc.put]
            rw [if_pos (by simp only [htk]; omega)]
            simp only [hE]
            simp only [hu0, if_true]
            rw [he, rest_replace]
            simp only [f4]
            rw [← hE]
            simp only [htk, replacement_eq, List.append_assoc]
      · -- in the middle
        have hpne : p ++ [b] ≠ [] := by simp
        cases hasc : ascii with
        | true =>
          subst hasc
          obtain ⟨gs, hgs, he⟩ := ih (p ++ [b]) s acc
            ⟨(decode e.state e.codep b).1, (decode e.state e.codep b).2, e.buf, e.last,
              e.undumped + 1, e.out⟩ hpre hs' (by simp [hu]) (by simpa using hb) hl ha
            (by simp at hm ⊢; omega)
          refine ⟨gs, by simpa using hgs, ?_⟩
          unfold escByte
          simp only
          rw [if_neg (by omega), if_neg (by omega), if_pos trivial]
          exact he
        | false =>
          subst hasc
          obtain ⟨gs, hgs, he⟩ := ih (p ++ [b]) s acc
            ⟨(decode e.state e.codep b).1, (decode e.state e.codep b).2, e.buf ++ [b], e.last,
              e.undumped + 1, e.out⟩ hpre hs' (by simp [hu])
            (by simp [hb]) hl ha
            (by simp at hm ⊢; omega)
          refine ⟨gs, by simpa using hgs, ?_⟩
          unfold escByte
          simp only [Esc.put]
          rw [if_neg (by omega), if_neg (by omega), if_neg (by simp),
            if_pos (by rw [hb]; simp; omega)]
          exact he

/-- every text can be cut into parts -/
theorem segs_exist {s : Bytes} (hs : ∀ b ∈ s, b < 256) : ∃ gs, Segs s gs := by
  obtain ⟨gs, h, _⟩ := escLoop_eq .ignore false (by simp) (2 * s.length + 1) [] s []
    ⟨0, 0, [], 0, 0, []⟩ .start hs rfl rfl rfl (by simp) (by simp)
  exact ⟨gs, h⟩

theorem dumpEscaped_eq (h : Handler) (ascii : Bool) {s : Bytes} (hs : ∀ b ∈ s, b < 256) :
    ∃ gs, Segs s gs ∧ dumpEscaped h ascii s = rest h ascii [] gs := by
  obtain ⟨gs, h1, h2⟩ := escLoop_eq h ascii (fun _ _ => segs_exist) (2 * s.length + 1) [] s []
    ⟨0, 0, [], 0, 0, []⟩ .start hs rfl (by simp) rfl (by simp) (by simp)
  exact ⟨gs, h1, h2⟩

end Verif.Json
