import Verif.Json.SpillLemmas
import Verif.Json.PropsWriter

/-!
# What has been written to the stream when `o << j` throws: C155
-/

namespace Verif.Json

open Spec

/-- the options of `o << j` -/
theorem insertInto_agree (fl : Floats F) (width : Int) (fill : Nat) (h' : Handler) (v : Json F) :
    Agree h' false (· ∈ strings v) (insertInto fl width fill v) (textOf (insertStream fl width fill v))
      (textOf (dump fl (if 0 < width then width else -1) fill false h' v)) := by
  have := (agree_value fl ⟨decide (0 < width), false, (if decide (0 < width) = true then width else 0).toNat, .strict⟩ h' rfl v 0
    (List.replicate 512 fill)).then (fun _ => agree_pure ())
  refine this.congr rfl ?_ ?_
  · simp only [insertStream]
    cases dumpV fl ⟨decide (0 < width), false, (if decide (0 < width) = true then width else 0).toNat, .strict⟩ 0
      (List.replicate 512 fill) v <;> simp [thenText, textOf, Outcome.bind]
  · have e : dump fl (if 0 < width then width else -1) fill false h' v =
        (dumpV fl ⟨decide (0 < width), false, (if decide (0 < width) = true then width else 0).toNat, h'⟩ 0
          (List.replicate 512 fill) v).bind fun (t, _) => .ok t := by
      by_cases h : 0 < width
      · have : 0 ≤ width := by omega
        simp [dump, h, this, -List.reduceReplicate]
      · simp [dump, h, -List.reduceReplicate]
    rw [e]
    cases dumpV fl ⟨decide (0 < width), false, (if decide (0 < width) = true then width else 0).toNat, h'⟩ 0
      (List.replicate 512 fill) v <;> simp [thenText, textOf, Outcome.bind]

/-! ## C155 -/

/-- **C155** A value all of whose strings are UTF-8 is in the stream as a whole, as the text `dump` gives, and no exception
is thrown. -/
theorem C155_complete (fl : Floats F) (width : Int) (hw : width ≤ 1024) (fill : Nat) (v : Json F) (hv : Held v)
    (hu : ∀ s ∈ strings v, Utf8 s) :
    ∃ t, dump fl (if 0 < width then width else -1) fill false .strict v = .ok t ∧
      insertInto fl width fill v = (t, .ok ()) := by
  obtain ⟨t, ht⟩ := (C114_strict_iff fl (if 0 < width then width else -1) (by split <;> omega) fill false v hv).1.mpr hu
  refine ⟨t, ht, ?_⟩
  obtain ⟨h1, h2, -⟩ := insertInto_agree fl width fill .strict v
  have hs : textOf (insertStream fl width fill v) = .ok (t, ()) := by
    rw [C113_stream_dump, ht]; rfl
  rw [hs] at h1
  exact Prod.ext (h2 t () hs) h1

example : insertInto exFloats 0 0x20 (.arr [.uint 1, .str [0x61]]) =
    ([0x5B, 0x31, 0x2C, 0x22, 0x61, 0x22, 0x5D], .ok ()) := by rfl

/-- **C155** If some string of the value, or the name of some member, is not UTF-8, `type_error.316` is thrown; what the
stream has then got is a beginning of what `dump` gives with the handlers `replace` and `ignore`: it ends in a string that
is not UTF-8, behind its opening quote, and holds everything before that quote.  Of the string itself a beginning may be
there, but nothing of a string of at most 83 bytes. -/
theorem C155_where (fl : Floats F) (width : Int) (hw : width ≤ 1024) (fill : Nat) (h' : Handler) (hh : h' ≠ .strict)
    (v : Json F) (hv : Held v) (hu : ¬ ∀ s ∈ strings v, Utf8 s) :
    (insertInto fl width fill v).2 = .throws "type_error.316" ∧
    ∃ p s f e r, s ∈ strings v ∧ ¬ Utf8 s ∧ (insertInto fl width fill v).1 = p ++ 0x22 :: f ∧
      dump fl (if 0 < width then width else -1) fill false h' v = .ok (p ++ 0x22 :: (e ++ 0x22 :: r)) ∧
      dump fl (-1) 0x20 false h' (.str s) = .ok (0x22 :: (e ++ [0x22])) ∧ f <+: e ∧ (s.length ≤ 83 → f = []) := by
  have hi : (if 0 < width then width else -1) ≤ 1024 := by split <;> omega
  have ht := (C114_strict_iff fl _ hi fill false v hv).2 hu
  rw [← C113_stream_dump] at ht
  obtain ⟨h1, -, h3⟩ := insertInto_agree fl width fill h' v
  rw [ht] at h1
  refine ⟨h1, ?_⟩
  rcases dump_result fl _ hi fill false h' v hv with ⟨-, hd⟩ | ⟨⟨s, -, hs⟩, -⟩
  · rw [hd] at h3 ⊢
    obtain ⟨-, h4⟩ := h3 _ () rfl
    obtain ⟨p, s, f, e, r, hs, hf, hw, he, ht'⟩ := h4 "type_error.316" (by rw [ht]; rfl)
    have hsp := spillLoop_strict h' false (2 * s.length + 1) ⟨0, 0, [], 0, 0, []⟩ s e he
    have hse := (spillLoop_eq .strict false (2 * s.length + 1) ⟨0, 0, [], 0, 0, []⟩ s)
    rw [show spillLoop _ _ _ _ _ = _ from hf] at hsp hse
    refine ⟨p, s, f, e, r, hs, fun hs8 => ?_, hw, by rw [ht'], ?_, hsp.2, fun hl => spillEscaped_short hl hf⟩
    · obtain ⟨t, hd⟩ := (C114_strict_iff fl (-1) (by decide) 0x20 false (.str s)
        (by rw [Held]; exact held_strings v hv s hs)).1.mpr (by simpa [strings] using hs8)
      have h2 : (dumpEscaped .strict false s).bind (fun _ => .ok ()) = .throws "type_error.316" := hse.2.symm
      simp only [dump, dumpV, dumpString] at hd
      cases hx : dumpEscaped .strict false s <;> rw [hx] at hd h2 <;> simp [Outcome.bind, -List.reduceReplicate] at hd h2
    · simp [dump, dumpV, dumpString, he, Outcome.bind, -List.reduceReplicate]
  · exact absurd (fun e => absurd e hh) hs

/-- `[1,"` is all the stream gets of an array of 1 and the byte `FF` -/
example : (insertInto exFloats 0 0x20 (.arr [.uint 1, .str [0xFF]])) = ([0x5B, 0x31, 0x2C, 0x22], .throws "type_error.316") := by decide +kernel

/-- a value of two elements, the second of which is the byte `FF` -/
def exSpilt : Json Nat := .arr [.uint 1, .str [0xFF]]

theorem exSpilt_held : Held exSpilt := by simp [exSpilt, Held, HeldL]

theorem exSpilt_written : insertInto exFloats 0 0x20 exSpilt = ([0x5B, 0x31, 0x2C, 0x22], .throws "type_error.316") := by
  rfl

example : ¬ ∀ s ∈ strings exSpilt, Utf8 s := by
  intro h
  obtain ⟨t, -, ht⟩ := C155_complete exFloats 0 (by decide) 0x20 exSpilt exSpilt_held h
  rw [exSpilt_written] at ht
  cases ht

/-- a string of 85 bytes, 84 control characters and a byte that begins no character: the escapes of all 84 are written -/
example : (insertInto exFloats 0 0x20 (.str (List.replicate 84 1 ++ [0xFF]))).1.length = 1 + 6 * 84 := by
  decide +kernel

/-- one byte less, and nothing of it is written -/
example : (insertInto exFloats 0 0x20 (.str (List.replicate 83 1 ++ [0xFF]))).1 = [0x22] := by
  decide +kernel

/-- **C155** (what does not hold) The stream is not as before if `o << j` throws: the beginning of the text is in it, and what
is written next follows that beginning. -/
theorem C155_unchanged_fails (fl : Floats F) (fill : Nat) :
    ∃ v : Json F, Held v ∧ (insertInto fl 0 fill v).2 = .throws "type_error.316" ∧
      (insertInto fl 0 fill v).1 = [0x5B, 0x31, 0x2C, 0x22] ∧
      ∀ w, (insertInto fl 0 fill v).1 ++ (insertInto fl 0 fill w).1 ≠ (insertInto fl 0 fill w).1 := by
  refine ⟨.arr [.uint 1, .str [0xFF]], by simp [Held, HeldL], rfl, rfl, fun w h => ?_⟩
  have := congrArg List.length h
  rw [List.length_append] at this
  have e : (insertInto fl 0 fill (.arr [.uint 1, .str [0xFF]])).1.length = 4 := rfl
  omega

end Verif.Json
