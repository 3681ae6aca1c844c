import Verif.Json.Spec
import Mathlib.Tactic.ByContra

/-!
# Lemmas about the lexer: strings
-/

namespace Verif.Json
open Spec

/-! ## UTF-8 -/

theorem or_C0 : ∀ x < 32, 0xC0 ||| x = 0xC0 + x := by decide
theorem or_80 : ∀ x < 64, 0x80 ||| x = 0x80 + x := by decide
theorem or_E0 : ∀ x < 16, 0xE0 ||| x = 0xE0 + x := by decide
theorem or_F0 : ∀ x < 8, 0xF0 ||| x = 0xF0 + x := by decide

theorem and_3F (x : Nat) : x &&& 0x3F = x % 64 := Nat.and_two_pow_sub_one_eq_mod x 6

theorem encode_eq {cp : Nat} (h : cp < 0x110000) : encode cp = utf8 cp := by
  unfold encode utf8
  simp only [and_3F, Nat.shiftRight_eq_div_pow]
  split
  · rfl
  · split
    · next h1 h2 =>
      rw [if_pos (by omega), or_C0 _ (by omega), or_80 _ (by omega)]
    · next h1 h2 =>
      rw [if_neg (show ¬ cp < 0x800 by omega)]
      split
      · next h3 =>
        rw [if_pos (by omega), or_E0 _ (by omega), or_80 _ (by omega), or_80 _ (by omega)]
      · next h3 =>
        rw [if_neg (show ¬ cp < 0x10000 by omega), or_F0 _ (by omega), or_80 _ (by omega), or_80 _ (by omega),
          or_80 _ (by omega)]

theorem utf8_1 {c : Nat} (h : c < 0x80) : utf8 c = [c] := by simp only [utf8, if_pos h]
theorem utf8_2 {c : Nat} (h : 0x80 ≤ c) (h' : c < 0x800) :
    utf8 c = [0xC0 + c / 64, 0x80 + c % 64] := by
  simp only [utf8]; rw [if_neg (by omega), if_pos h']
theorem utf8_3 {c : Nat} (h : 0x800 ≤ c) (h' : c < 0x10000) :
    utf8 c = [0xE0 + c / 4096, 0x80 + c / 64 % 64, 0x80 + c % 64] := by
  simp only [utf8]; rw [if_neg (by omega), if_neg (by omega), if_pos h']
theorem utf8_4 {c : Nat} (h : 0x10000 ≤ c) :
    utf8 c = [0xF0 + c / 262144, 0x80 + c / 4096 % 64, 0x80 + c / 64 % 64, 0x80 + c % 64] := by
  simp only [utf8]; rw [if_neg (by omega), if_neg (by omega), if_neg (by omega)]

/-! ## Hexadecimal digits -/

theorem Spec.HexDigit.lt {c v : Nat} (h : HexDigit c v) : v < 16 := by
  cases h <;> omega

theorem codepointLoop_cons {fs : List Nat} {f acc c : Nat} {s : Bytes} {r : Nat × Bytes} :
    codepointLoop (f :: fs) acc (c :: s) = some r ↔
      ∃ v, HexDigit c v ∧ codepointLoop fs (acc + (v <<< f)) s = some r := by
  simp only [codepointLoop]
  constructor
  · intro h
    split at h
    · next h1 =>
      refine ⟨c - 0x30, ?_, h⟩
      have := HexDigit.dec (c - 0x30) (by omega)
      rwa [show 0x30 + (c - 0x30) = c by omega] at this
    · split at h
      · next h1 h2 =>
        refine ⟨c - 0x37, ?_, h⟩
        have := HexDigit.upper (c - 0x41) (by omega)
        rwa [show 0x41 + (c - 0x41) = c by omega, show 10 + (c - 0x41) = c - 0x37 by omega] at this
      · split at h
        · next h1 h2 h3 =>
          refine ⟨c - 0x57, ?_, h⟩
          have := HexDigit.lower (c - 0x61) (by omega)
          rwa [show 0x61 + (c - 0x61) = c by omega,
            show 10 + (c - 0x61) = c - 0x57 by omega] at this
        · cases h
  · rintro ⟨v, hv, h⟩
    cases hv with
    | dec v hv =>
      rw [if_pos (by omega), show 0x30 + v - 0x30 = v by omega]; exact h
    | upper v hv =>
      rw [if_neg (by omega), if_pos (by omega), show 0x41 + v - 0x37 = 10 + v by omega]; exact h
    | lower v hv =>
      rw [if_neg (by omega), if_neg (by omega), if_pos (by omega),
        show 0x61 + v - 0x57 = 10 + v by omega]; exact h

theorem getCodepoint_iff {s s' : Bytes} {cp : Nat} :
    getCodepoint s = some (cp, s') ↔ ∃ h, Hex4 h cp ∧ s = h ++ s' := by
  unfold getCodepoint
  constructor
  · intro h
    rcases s with _ | ⟨a, s⟩
    · cases h
    obtain ⟨va, ha, h⟩ := codepointLoop_cons.1 h
    rcases s with _ | ⟨b, s⟩
    · cases h
    obtain ⟨vb, hb, h⟩ := codepointLoop_cons.1 h
    rcases s with _ | ⟨c, s⟩
    · cases h
    obtain ⟨vc, hc, h⟩ := codepointLoop_cons.1 h
    rcases s with _ | ⟨d, s⟩
    · cases h
    obtain ⟨vd, hd, h⟩ := codepointLoop_cons.1 h
    simp only [codepointLoop, Option.some.injEq, Prod.mk.injEq] at h
    obtain ⟨h1, h2⟩ := h
    subst h2
    have : cp = 4096 * va + 256 * vb + 16 * vc + vd := by
      rw [← h1]; simp only [Nat.shiftLeft_eq]; omega
    rw [this]
    exact ⟨[a, b, c, d], .mk ha hb hc hd, rfl⟩
  · rintro ⟨h, hh, rfl⟩
    cases hh with
    | mk ha hb hc hd =>
      rename_i a b c d va vb vc vd
      simp only [List.cons_append, List.nil_append]
      refine codepointLoop_cons.2 ⟨_, ha, codepointLoop_cons.2 ⟨_, hb, codepointLoop_cons.2
        ⟨_, hc, codepointLoop_cons.2 ⟨_, hd, ?_⟩⟩⟩⟩
      simp only [codepointLoop, Option.some.injEq, Prod.mk.injEq, and_true]
      simp only [Nat.shiftLeft_eq]; omega

theorem Spec.Hex4.lt {h : Bytes} {v : Nat} (hh : Hex4 h v) : v < 0x10000 := by
  cases hh with
  | mk ha hb hc hd => have := ha.lt; have := hb.lt; have := hc.lt; have := hd.lt; omega

theorem Spec.Hex4.length {h : Bytes} {v : Nat} (hh : Hex4 h v) : h.length = 4 := by cases hh; rfl

/-! ## Escapes -/

theorem scanUnicode_iff {s out s' : Bytes} :
    scanUnicode s = some (out, s') ↔
      (∃ h c, Hex4 h c ∧ Scalar c ∧ out = utf8 c ∧ s = h ++ s') ∨
      (∃ h h' a b, Hex4 h a ∧ Hex4 h' b ∧ 0xD800 ≤ a ∧ a < 0xDC00 ∧ 0xDC00 ≤ b ∧ b < 0xE000 ∧
        out = utf8 (0x10000 + (a - 0xD800) * 0x400 + (b - 0xDC00)) ∧
        s = h ++ 0x5C :: 0x75 :: (h' ++ s')) := by
  unfold scanUnicode
  constructor
  · intro hs
    rcases hc : getCodepoint s with _ | ⟨cp1, s1⟩
    · rw [hc] at hs; cases hs
    · rw [hc] at hs
      obtain ⟨h, hh, rfl⟩ := getCodepoint_iff.1 hc
      have := hh.lt
      simp only at hs
      split at hs
      · next h1 =>
        split at hs
        · next s2 =>
          rcases hc2 : getCodepoint s2 with _ | ⟨cp2, s3⟩
          · rw [hc2] at hs; cases hs
          · rw [hc2] at hs
            obtain ⟨h', hh', rfl⟩ := getCodepoint_iff.1 hc2
            simp only at hs
            split at hs
            · next h2 =>
              simp only [Option.some.injEq, Prod.mk.injEq] at hs
              obtain ⟨rfl, rfl⟩ := hs
              refine .inr ⟨h, h', cp1, cp2, hh, hh', h1.1, by omega, h2.1, by omega, ?_, rfl⟩
              rw [Nat.shiftLeft_eq]
              exact (encode_eq (by omega)).trans (congrArg utf8 (by omega))
            · cases hs
        · cases hs
      · split at hs
        · cases hs
        · next h1 h2 =>
          simp only [Option.some.injEq, Prod.mk.injEq] at hs
          obtain ⟨rfl, rfl⟩ := hs
          refine .inl ⟨h, cp1, hh, ?_, encode_eq (by omega), rfl⟩
          unfold Scalar; omega
  · rintro (⟨h, c, hh, hc, rfl, rfl⟩ | ⟨h, h', a, b, hh, hh', h1, h2, h3, h4, ho, rfl⟩)
    · rw [getCodepoint_iff.2 ⟨h, hh, rfl⟩]
      have := hh.lt
      simp only
      unfold Scalar at hc
      rw [if_neg (by omega), if_neg (by omega), encode_eq (by omega)]
    · rw [getCodepoint_iff.2 ⟨h, hh, rfl⟩]
      simp only
      rw [if_pos ⟨h1, by omega⟩, getCodepoint_iff.2 ⟨h', hh', rfl⟩]
      simp only
      rw [if_pos ⟨h3, by omega⟩, Nat.shiftLeft_eq, ho]
      exact congrArg (fun x => some (x, s'))
        ((encode_eq (by omega)).trans (congrArg utf8 (by omega)))

theorem scanEscape_iff {s out s' : Bytes} :
    scanEscape s = some (out, s') ↔
      (∃ e c, (e, c) ∈ escapes ∧ out = [c] ∧ s = e :: s') ∨
      (∃ r, s = 0x75 :: r ∧ scanUnicode r = some (out, s')) := by
  constructor
  · intro h
    unfold scanEscape at h
    split at h
    all_goals first
      | (cases h; done)
      | (simp only [Option.some.injEq, Prod.mk.injEq] at h
         obtain ⟨rfl, rfl⟩ := h
         exact .inl ⟨_, _, by simp [escapes], rfl, rfl⟩)
      | exact .inr ⟨_, rfl, h⟩
  · rintro (⟨e, c, he, rfl, rfl⟩ | ⟨r, rfl, h⟩)
    · simp only [escapes, List.mem_cons, Prod.mk.injEq, List.not_mem_nil, or_false] at he
      rcases he with h | h | h | h | h | h | h | h <;> (obtain ⟨rfl, rfl⟩ := h; rfl)
    · exact h

/-! ## Characters and strings -/

theorem nextByte_nil {s out s' : Bytes} :
    nextByteInRange [] s = some (out, s') ↔ out = [] ∧ s = s' := by
  simp only [nextByteInRange, Option.some.injEq, Prod.mk.injEq, eq_comm]

theorem nextByte_cons {lo hi : Nat} {rs : List (Nat × Nat)} {s out s' : Bytes} :
    nextByteInRange ((lo, hi) :: rs) s = some (out, s') ↔
      ∃ c o r, lo ≤ c ∧ c ≤ hi ∧ out = c :: o ∧ s = c :: r ∧
        nextByteInRange rs r = some (o, s') := by
  rcases s with _ | ⟨c, s⟩
  · simp only [nextByteInRange]
    constructor
    · intro h; cases h
    · rintro ⟨c, o, r, _, _, _, h, _⟩; cases h
  · simp only [nextByteInRange]
    constructor
    · intro h
      split at h
      · next h1 =>
        rcases hr : nextByteInRange rs s with _ | ⟨o, s1⟩
        · rw [hr] at h; cases h
        · rw [hr] at h
          simp only [Option.some.injEq, Prod.mk.injEq] at h
          obtain ⟨rfl, rfl⟩ := h
          exact ⟨c, o, s, h1.1, h1.2, rfl, rfl, hr⟩
      · cases h
    · rintro ⟨c', o, r, h1, h2, rfl, h3, h4⟩
      simp only [List.cons.injEq] at h3
      obtain ⟨rfl, rfl⟩ := h3
      rw [if_pos ⟨h1, h2⟩, h4]

theorem Spec.StrChar.plain' {c : Nat} {t : Bytes} (h : Scalar c) (h20 : 0x80 ≤ c) (ht : t = utf8 c) :
    StrChar t t := ht ▸ .plain h (by omega) (by omega) (by omega)

theorem scanChar_sound {c : Nat} {s out s' : Bytes} (h22 : c ≠ 0x22)
    (h : scanChar c s = some (out, s')) :
    ∃ t, StrChar t out ∧ c :: s = t ++ s' := by
  have conv : ∀ rs, (match nextByteInRange rs s with
      | some (out, s') => some (c :: out, s')
      | none => none) = some (out, s') →
      ∃ o, out = c :: o ∧ nextByteInRange rs s = some (o, s') := by
    intro rs h
    rcases hr : nextByteInRange rs s with _ | ⟨o, s1⟩
    · rw [hr] at h; cases h
    · rw [hr] at h
      simp only [Option.some.injEq, Prod.mk.injEq] at h
      obtain ⟨rfl, rfl⟩ := h
      exact ⟨o, rfl, rfl⟩
  have two : ∀ lo hi, nextByteInRange [(lo, hi)] s = some (out.tail, s') → out = c :: out.tail →
      ∃ b, lo ≤ b ∧ b ≤ hi ∧ out = [c, b] ∧ s = b :: s' := by
    intro lo hi h ho
    obtain ⟨b, o, r, h1, h2, h3, h4, h5⟩ := nextByte_cons.1 h
    obtain ⟨rfl, rfl⟩ := nextByte_nil.1 h5
    exact ⟨b, h1, h2, by rw [ho, h3], h4⟩
  have three : ∀ lo hi lo' hi', nextByteInRange [(lo, hi), (lo', hi')] s = some (out.tail, s') →
      out = c :: out.tail → ∃ b b', lo ≤ b ∧ b ≤ hi ∧ lo' ≤ b' ∧ b' ≤ hi' ∧ out = [c, b, b'] ∧
        s = b :: b' :: s' := by
    intro lo hi lo' hi' h ho
    obtain ⟨b, o, r, h1, h2, h3, h4, h5⟩ := nextByte_cons.1 h
    obtain ⟨b', o', r', h1', h2', h3', h4', h5'⟩ := nextByte_cons.1 h5
    obtain ⟨rfl, rfl⟩ := nextByte_nil.1 h5'
    exact ⟨b, b', h1, h2, h1', h2', by rw [ho, h3, h3'], by rw [h4, h4']⟩
  have four : ∀ lo hi, nextByteInRange [(lo, hi), (0x80, 0xBF), (0x80, 0xBF)] s =
      some (out.tail, s') →
      out = c :: out.tail → ∃ b b' b'', lo ≤ b ∧ b ≤ hi ∧ 0x80 ≤ b' ∧ b' ≤ 0xBF ∧ 0x80 ≤ b'' ∧
        b'' ≤ 0xBF ∧ out = [c, b, b', b''] ∧ s = b :: b' :: b'' :: s' := by
    intro lo hi h ho
    obtain ⟨b, o, r, h1, h2, h3, h4, h5⟩ := nextByte_cons.1 h
    obtain ⟨b', o', r', h1', h2', h3', h4', h5'⟩ := nextByte_cons.1 h5
    obtain ⟨b'', o'', r'', h1'', h2'', h3'', h4'', h5''⟩ := nextByte_cons.1 h5'
    obtain ⟨rfl, rfl⟩ := nextByte_nil.1 h5''
    exact ⟨b, b', b'', h1, h2, h1', h2', h1'', h2'', by rw [ho, h3, h3', h3''],
      by rw [h4, h4', h4'']⟩
  have two' : ∀ lo hi, out = c :: out.tail → nextByteInRange [(lo, hi)] s = some (out.tail, s') →
      0x80 ≤ lo → hi ≤ 0xBF → 0xC2 ≤ c → c ≤ 0xDF → ∃ t, StrChar t out ∧ c :: s = t ++ s' := by
    intro lo hi ho h hlo hhi h1 h2
    obtain ⟨b, hb1, hb2, rfl, rfl⟩ := two lo hi h ho
    refine ⟨[c, b], .plain' (c := (c - 0xC0) * 64 + (b - 0x80)) (by unfold Scalar; omega)
      (by omega) ?_, rfl⟩
    rw [utf8_2 (by omega) (by omega)]
    simp only [List.cons.injEq, and_true]
    omega
  have three' : ∀ lo hi, out = c :: out.tail →
      nextByteInRange [(lo, hi), (0x80, 0xBF)] s = some (out.tail, s') →
      0x80 ≤ lo → hi ≤ 0xBF → 0xE0 ≤ c → c ≤ 0xEF → (c = 0xE0 → 0xA0 ≤ lo) →
      (c = 0xED → hi ≤ 0x9F) → ∃ t, StrChar t out ∧ c :: s = t ++ s' := by
    intro lo hi ho h hlo hhi h1 h2 h3 h4
    obtain ⟨b, b', hb1, hb2, hb1', hb2', rfl, rfl⟩ := three lo hi _ _ h ho
    refine ⟨[c, b, b'], .plain' (c := (c - 0xE0) * 4096 + (b - 0x80) * 64 + (b' - 0x80))
      (by unfold Scalar; omega) (by omega) ?_, rfl⟩
    rw [utf8_3 (by omega) (by omega)]
    simp only [List.cons.injEq, and_true]
    omega
  have four' : ∀ lo hi, out = c :: out.tail →
      nextByteInRange [(lo, hi), (0x80, 0xBF), (0x80, 0xBF)] s = some (out.tail, s') →
      0x80 ≤ lo → hi ≤ 0xBF → 0xF0 ≤ c → c ≤ 0xF4 → (c = 0xF0 → 0x90 ≤ lo) →
      (c = 0xF4 → hi ≤ 0x8F) → ∃ t, StrChar t out ∧ c :: s = t ++ s' := by
    intro lo hi ho h hlo hhi h1 h2 h3 h4
    obtain ⟨b, b', b'', hb1, hb2, hb1', hb2', hb1'', hb2'', rfl, rfl⟩ := four lo hi h ho
    refine ⟨[c, b, b', b''], .plain' (c := (c - 0xF0) * 262144 + (b - 0x80) * 4096 +
      (b' - 0x80) * 64 + (b'' - 0x80)) (by unfold Scalar; omega) (by omega) ?_, rfl⟩
    rw [utf8_4 (by omega)]
    simp only [List.cons.injEq, and_true]
    omega
  unfold scanChar at h
  simp only at h
  split at h
  · next h0 =>
    subst h0
    rcases scanEscape_iff.1 h with ⟨e, c, he, rfl, rfl⟩ | ⟨r, rfl, hr⟩
    · exact ⟨[0x5C, e], .escape he, rfl⟩
    · rcases scanUnicode_iff.1 hr with ⟨x, c, hh, hc, rfl, rfl⟩ |
        ⟨x, x', a, b, hh, hh', h1, h2, h3, h4, ho, rfl⟩
      · exact ⟨0x5C :: 0x75 :: x, .unicode hh hc, rfl⟩
      · refine ⟨0x5C :: 0x75 :: (x ++ 0x5C :: 0x75 :: x'), ?_, by simp⟩
        rw [ho]
        exact .pair hh hh' h1 h2 h3 h4
  · split at h
    · cases h
    · split at h
      · next h0 h1 h2 =>
        simp only [Option.some.injEq, Prod.mk.injEq] at h
        obtain ⟨rfl, rfl⟩ := h
        refine ⟨[c], ?_, rfl⟩
        have := StrChar.plain (c := c) (by unfold Scalar; omega) (by omega) h22 h0
        rwa [utf8_1 (by omega)] at this
      · split at h
        · obtain ⟨o, rfl, hn⟩ := conv _ h
          exact two' _ _ rfl hn (by omega) (by omega) (by omega) (by omega)
        · split at h
          · obtain ⟨o, rfl, hn⟩ := conv _ h
            exact three' _ _ rfl hn (by omega) (by omega) (by omega) (by omega) (by omega) (by omega)
          · split at h
            · obtain ⟨o, rfl, hn⟩ := conv _ h
              exact three' _ _ rfl hn (by omega) (by omega) (by omega) (by omega) (by omega)
                (by omega)
            · split at h
              · obtain ⟨o, rfl, hn⟩ := conv _ h
                exact three' _ _ rfl hn (by omega) (by omega) (by omega) (by omega) (by omega)
                  (by omega)
              · split at h
                · obtain ⟨o, rfl, hn⟩ := conv _ h
                  exact four' _ _ rfl hn (by omega) (by omega) (by omega) (by omega) (by omega)
                    (by omega)
                · split at h
                  · obtain ⟨o, rfl, hn⟩ := conv _ h
                    exact four' _ _ rfl hn (by omega) (by omega) (by omega) (by omega) (by omega)
                      (by omega)
                  · split at h
                    · obtain ⟨o, rfl, hn⟩ := conv _ h
                      exact four' _ _ rfl hn (by omega) (by omega) (by omega) (by omega) (by omega)
                        (by omega)
                    · cases h

theorem scanChar_multi {c : Nat} {s : Bytes} {rs : List (Nat × Nat)} {o s' : Bytes}
    (h : nextByteInRange rs s = some (o, s')) :
    (match nextByteInRange rs s with
      | some (out, s') => some (c :: out, s')
      | none => none) = some (c :: o, s') := by rw [h]

theorem scanChar_complete {t out : Bytes} (h : StrChar t out) (rest : Bytes) :
    ∃ c s, t ++ rest = c :: s ∧ c ≠ 0x22 ∧ scanChar c s = some (out, rest) := by
  cases h with
  | escape he =>
    rename_i e c
    exact ⟨0x5C, e :: rest, rfl, by omega, scanEscape_iff.2 (.inl ⟨e, c, he, rfl, rfl⟩)⟩
  | unicode hh hc =>
    rename_i h c
    exact ⟨0x5C, 0x75 :: (h ++ rest), rfl, by omega, scanEscape_iff.2 (.inr ⟨_, rfl,
      scanUnicode_iff.2 (.inl ⟨h, c, hh, hc, rfl, rfl⟩)⟩)⟩
  | pair hh hh' h1 h2 h3 h4 =>
    rename_i h h' a b
    refine ⟨0x5C, 0x75 :: (h ++ 0x5C :: 0x75 :: (h' ++ rest)), by simp, by omega,
      scanEscape_iff.2 (.inr ⟨_, rfl, scanUnicode_iff.2 (.inr ⟨h, h', a, b, hh, hh', h1, h2, h3, h4,
        rfl, rfl⟩)⟩)⟩
  | plain hs h20 h22 h5c =>
    rename_i c
    unfold Scalar at hs
    by_cases h1 : c < 0x80
    · rw [utf8_1 h1]
      refine ⟨c, rest, rfl, h22, ?_⟩
      unfold scanChar
      simp only
      rw [if_neg h5c, if_neg (by omega), if_pos (by omega)]
    by_cases h2 : c < 0x800
    · rw [utf8_2 (by omega) h2]
      refine ⟨0xC0 + c / 64, (0x80 + c % 64) :: rest, rfl, by omega, ?_⟩
      unfold scanChar
      simp only
      rw [if_neg (by omega), if_neg (by omega), if_neg (by omega), if_pos (by omega)]
      exact scanChar_multi (nextByte_cons.2 ⟨_, _, _, by omega, by omega, rfl, rfl,
        nextByte_nil.2 ⟨rfl, rfl⟩⟩)
    by_cases h3 : c < 0x10000
    · rw [utf8_3 (by omega) h3]
      refine ⟨0xE0 + c / 4096, (0x80 + c / 64 % 64) :: (0x80 + c % 64) :: rest, rfl, by omega, ?_⟩
      unfold scanChar
      simp only
      rw [if_neg (by omega), if_neg (by omega), if_neg (by omega), if_neg (by omega)]
      by_cases h4 : c / 4096 = 0
      · rw [if_pos (by omega)]
        exact scanChar_multi (nextByte_cons.2 ⟨_, _, _, by omega, by omega, rfl, rfl,
          nextByte_cons.2 ⟨_, _, _, by omega, by omega, rfl, rfl, nextByte_nil.2 ⟨rfl, rfl⟩⟩⟩)
      rw [if_neg (by omega)]
      by_cases h5 : c / 4096 = 13
      · rw [if_neg (by omega), if_pos (by omega)]
        exact scanChar_multi (nextByte_cons.2 ⟨_, _, _, by omega, by omega, rfl, rfl,
          nextByte_cons.2 ⟨_, _, _, by omega, by omega, rfl, rfl, nextByte_nil.2 ⟨rfl, rfl⟩⟩⟩)
      rw [if_pos (by omega)]
      exact scanChar_multi (nextByte_cons.2 ⟨_, _, _, by omega, by omega, rfl, rfl,
          nextByte_cons.2 ⟨_, _, _, by omega, by omega, rfl, rfl, nextByte_nil.2 ⟨rfl, rfl⟩⟩⟩)
    · rw [utf8_4 (by omega)]
      refine ⟨0xF0 + c / 262144, (0x80 + c / 4096 % 64) :: (0x80 + c / 64 % 64) ::
        (0x80 + c % 64) :: rest, rfl, by omega, ?_⟩
      unfold scanChar
      simp only
      rw [if_neg (by omega), if_neg (by omega), if_neg (by omega), if_neg (by omega),
        if_neg (by omega), if_neg (by omega), if_neg (by omega)]
      by_cases h4 : c / 262144 = 0
      · rw [if_pos (by omega)]
        exact scanChar_multi (nextByte_cons.2 ⟨_, _, _, by omega, by omega, rfl, rfl,
          nextByte_cons.2 ⟨_, _, _, by omega, by omega, rfl, rfl, nextByte_cons.2 ⟨_, _, _,
            by omega, by omega, rfl, rfl, nextByte_nil.2 ⟨rfl, rfl⟩⟩⟩⟩)
      rw [if_neg (by omega)]
      by_cases h5 : c / 262144 = 4
      · rw [if_neg (by omega), if_pos (by omega)]
        exact scanChar_multi (nextByte_cons.2 ⟨_, _, _, by omega, by omega, rfl, rfl,
          nextByte_cons.2 ⟨_, _, _, by omega, by omega, rfl, rfl, nextByte_cons.2 ⟨_, _, _,
            by omega, by omega, rfl, rfl, nextByte_nil.2 ⟨rfl, rfl⟩⟩⟩⟩)
      rw [if_pos (by omega)]
      exact scanChar_multi (nextByte_cons.2 ⟨_, _, _, by omega, by omega, rfl, rfl,
          nextByte_cons.2 ⟨_, _, _, by omega, by omega, rfl, rfl, nextByte_cons.2 ⟨_, _, _,
            by omega, by omega, rfl, rfl, nextByte_nil.2 ⟨rfl, rfl⟩⟩⟩⟩)

theorem Spec.StrChar.ne_nil {t s : Bytes} (h : StrChar t s) : t ≠ [] := by
  obtain ⟨c, r, h1, _, _⟩ := scanChar_complete h []
  intro h0
  rw [h0] at h1
  cases h1

theorem scanStringLoop_sound : ∀ (n : Nat) (buf s b r : Bytes),
    scanStringLoop n buf s = some (b, r) →
    ∃ t out, StrChars t out ∧ s = t ++ 0x22 :: r ∧ b = buf ++ out := by
  intro n
  induction n with
  | zero => intro buf s b r h; cases h
  | succ n ih =>
    intro buf s b r h
    rcases s with _ | ⟨c, s⟩
    · cases h
    simp only [scanStringLoop] at h
    split at h
    · next hc =>
      simp only [Option.some.injEq, Prod.mk.injEq] at h
      obtain ⟨rfl, rfl⟩ := h
      exact ⟨[], [], .nil, by rw [hc]; rfl, by simp⟩
    · next hc =>
      rcases hs : scanChar c s with _ | ⟨out, s'⟩
      · rw [hs] at h; cases h
      · rw [hs] at h
        simp only at h
        obtain ⟨t, ht, e⟩ := scanChar_sound hc hs
        obtain ⟨t', out', ht', e', e''⟩ := ih _ _ _ _ h
        exact ⟨t ++ t', out ++ out', .cons ht ht', by rw [e, e', List.append_assoc],
          by rw [e'', List.append_assoc]⟩

theorem scanStringLoop_complete {t out : Bytes} (h : StrChars t out) :
    ∀ (n : Nat) (buf rest : Bytes), t.length < n →
      scanStringLoop n buf (t ++ 0x22 :: rest) = some (buf ++ out, rest) := by
  induction h with
  | nil =>
    intro n buf rest hn
    obtain ⟨n, rfl⟩ : ∃ k, n = k + 1 := ⟨n - 1, by omega⟩
    simp [scanStringLoop]
  | cons h1 h2 ih =>
    rename_i t s t' s'
    intro n buf rest hn
    obtain ⟨n, rfl⟩ : ∃ k, n = k + 1 := ⟨n - 1, by omega⟩
    obtain ⟨c, r, e, hc, hr⟩ := scanChar_complete h1 (t' ++ 0x22 :: rest)
    rw [List.append_assoc, e, scanStringLoop, if_neg hc, hr]
    simp only
    have hl : 0 < t.length := List.length_pos_iff.2 h1.ne_nil
    rw [List.length_append] at hn
    rw [ih n _ _ (by omega), List.append_assoc]

theorem scanString_iff {s b r : Bytes} :
    scanString s = some (b, r) ↔ ∃ t, StrChars t b ∧ s = t ++ 0x22 :: r := by
  unfold scanString
  constructor
  · intro h
    obtain ⟨t, out, ht, e, e'⟩ := scanStringLoop_sound _ _ _ _ _ h
    rw [List.nil_append] at e'
    exact ⟨t, e' ▸ ht, e⟩
  · rintro ⟨t, ht, rfl⟩
    exact scanStringLoop_complete ht _ [] r (by simp; omega)

end Verif.Json
