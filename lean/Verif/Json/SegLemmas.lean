import Verif.Json.EscLemmas

/-!
# Lemmas about the parts of a string and their text
-/

namespace Verif.Json
open Spec

theorem utf8_ne_nil (c : Nat) : utf8 c ≠ [] := by
  unfold utf8
  (repeat' split) <;> simp

/-- no character begins another -/
theorem utf8_prefix_free {c d : Nat} (hc : Scalar c) (hd : Scalar d) (h : utf8 c <+: utf8 d) : c = d := by
  obtain ⟨t, ht⟩ := h
  rcases utf8_cases hc with ⟨h1, e⟩ | ⟨x, y, e, h⟩ | ⟨x, y, z, e, h⟩ | ⟨x, y, z, w, e, h⟩ <;>
    rcases utf8_cases hd with ⟨h1', e'⟩ | ⟨x', y', e', h'⟩ | ⟨x', y', z', e', h'⟩ |
      ⟨x', y', z', w', e', h'⟩ <;>
    rw [e, e'] at ht <;>
    simp only [List.cons_append, List.nil_append, List.cons.injEq, reduceCtorEq, and_false] at ht <;>
    (obtain ⟨rfl, ht⟩ := ht; omega)

theorem Spec.Begins.mono {x y : Bytes} (h : Begins y) (hx : x <+: y) : Begins x := by
  obtain ⟨c, hc, hp⟩ := h
  exact ⟨c, hc, hx.trans hp⟩

theorem begins_utf8 {c : Nat} (h : Scalar c) : Begins (utf8 c) := ⟨c, h, List.prefix_refl _⟩

theorem snoc_prefix {x r : Bytes} {b : Nat} : x ++ [b] <+: x ++ b :: r := ⟨r, by simp⟩

/-- a part that is as long as it can be, and another with the same beginning -/
theorem part_unique {j s k t : Bytes} (hj : Begins j) (h : j ++ s = k ++ t)
    (hmax : ∀ b t', t = b :: t' → ¬ Begins (k ++ [b])) : j <+: k := by
  rcases List.append_eq_append_iff.mp h with ⟨a, rfl, _⟩ | ⟨a, rfl, ht⟩
  · exact ⟨a, rfl⟩
  · cases a with
    | nil => simp
    | cons b a => exact absurd (hj.mono snoc_prefix) (hmax b _ ht)

/-- there is only one way of cutting a text into parts -/
theorem Spec.Segs.unique {s : Bytes} {gs gs' : List (Option Nat)} (h : Segs s gs) (h' : Segs s gs') :
    gs = gs' := by
  have max : ∀ {c : Nat} {r : Bytes}, Scalar c → ∀ b r', r = b :: r' → ¬ Begins (utf8 c ++ [b]) := by
    intro c r hc b r' _ ⟨d, hd, hp⟩
    have := utf8_prefix_free hc hd ((List.prefix_append _ _).trans hp)
    subst this
    have := hp.length_le
    simp at this
    omega
  have noCut : ∀ {c : Nat} {x j y : Bytes}, Scalar c → utf8 c ++ x = j ++ y → Begins j →
      (∀ c, Scalar c → utf8 c ≠ j) → (∀ b s', y = b :: s' → ¬ Begins (j ++ [b])) → False := by
    intro c x j y hc he hB hn hm
    have p1 := part_unique (begins_utf8 hc) he hm
    have p2 := part_unique hB he.symm (max (r := x) hc)
    exact hn c hc (p1.eq_of_length (Nat.le_antisymm p1.length_le p2.length_le))
  have noByte : ∀ {b : Nat} {x j y : Bytes}, b :: x = j ++ y → j ≠ [] → Begins j → ¬ Begins [b] →
      False := by
    intro b x j y he hj hB hb
    cases j with
    | nil => exact hj rfl
    | cons a j =>
      simp only [List.cons_append, List.cons.injEq] at he
      obtain ⟨rfl, _⟩ := he
      exact hb (hB.mono ⟨j, rfl⟩)
  induction h generalizing gs' with
  | nil =>
    generalize he : ([] : Bytes) = x at h'
    cases h' with
    | nil => rfl
    | char => simp [utf8_ne_nil] at he
    | cut hj => simp [hj] at he
    | byte => simp at he
  | @char c s gs hc _ ih =>
    generalize he : utf8 c ++ s = x at h'
    cases h' with
    | nil => simp [utf8_ne_nil] at he
    | char hc' h' =>
      have p1 := part_unique (begins_utf8 hc) he (max hc')
      have := utf8_prefix_free hc hc' p1
      subst this
      rw [ih (List.append_cancel_left he ▸ h')]
    | cut hj hB hn hm h' => exact absurd (noCut hc he hB hn hm) id
    | byte hb h' => exact absurd (noByte he.symm (utf8_ne_nil c) (begins_utf8 hc) hb) id
  | @cut j s gs hj hB hn hm _ ih =>
    generalize he : j ++ s = x at h'
    cases h' with
    | nil => simp [hj] at he
    | char hc' h' => exact absurd (noCut hc' he.symm hB hn hm) id
    | cut hj' hB' hn' hm' h' =>
      have p1 := part_unique hB he hm'
      have p2 := part_unique hB' he.symm hm
      have := p1.eq_of_length (Nat.le_antisymm p1.length_le p2.length_le)
      subst this
      rw [ih (List.append_cancel_left he ▸ h')]
    | byte hb h' => exact absurd (noByte he.symm hj hB hb) id
  | @byte b s gs hb _ ih =>
    generalize he : b :: s = x at h'
    cases h' with
    | nil => simp at he
    | char hc' h' => exact absurd (noByte he (utf8_ne_nil _) (begins_utf8 hc') hb) id
    | cut hj' hB' hn' hm' h' => exact absurd (noByte he hj' hB' hb) id
    | byte hb' h' =>
      obtain ⟨rfl, rfl⟩ := List.cons.inj he
      rw [ih h']

/-- the parts of a well-formed text are its characters -/
theorem segs_utf8 {cs : List Nat} (h : ∀ c ∈ cs, Scalar c) : Segs (utf8All cs) (cs.map some) := by
  induction cs with
  | nil => exact .nil
  | cons c cs ih => exact .char (h c (by simp)) (ih fun d hd => h d (by simp [hd]))

/-- if all parts are characters, the text is well-formed -/
theorem Spec.Segs.utf8 {s : Bytes} {gs : List (Option Nat)} (h : Segs s gs) (hn : none ∉ gs) :
    ∃ cs, gs = cs.map some ∧ s = utf8All cs := by
  induction h with
  | nil => exact ⟨[], rfl, rfl⟩
  | @char c s gs hc _ ih =>
    obtain ⟨cs, rfl, rfl⟩ := ih (fun h => hn (by simp [h]))
    exact ⟨c :: cs, rfl, rfl⟩
  | cut => simp at hn
  | byte => simp at hn

theorem Spec.Segs.scalar {s : Bytes} {gs : List (Option Nat)} (h : Segs s gs) {c : Nat}
    (hc : some c ∈ gs) : Scalar c := by
  induction h with
  | nil => simp at hc
  | char hs _ ih =>
    rcases List.mem_cons.mp hc with h | h
    · cases h; exact hs
    · exact ih h
  | cut _ _ _ _ _ ih => exact ih (by simpa using hc)
  | byte _ _ ih => exact ih (by simpa using hc)

theorem wanted_strict {gs : List (Option Nat)} :
    (none ∈ gs ∧ wanted .strict gs = none) ∨ ∃ cs, gs = cs.map some ∧ wanted .strict gs = some cs := by
  induction gs with
  | nil => exact .inr ⟨[], rfl, rfl⟩
  | cons g gs ih =>
    cases g with
    | none => exact .inl ⟨by simp, rfl⟩
    | some c =>
      rcases ih with ⟨h1, h2⟩ | ⟨cs, rfl, h2⟩
      · exact .inl ⟨by simp [h1], by simp [wanted, h2]⟩
      · exact .inr ⟨c :: cs, rfl, by simp [wanted, h2]⟩

theorem wanted_map_some (h : Handler) (cs : List Nat) : wanted h (cs.map some) = some cs := by
  induction cs with
  | nil => cases h <;> rfl
  | cons c cs ih => cases h <;> simp [wanted, ih]

theorem wanted_replace (gs : List (Option Nat)) :
    wanted .replace gs = some (gs.map fun g => g.getD 0xFFFD) := by
  induction gs with
  | nil => rfl
  | cons g gs ih => cases g <;> simp [wanted, ih]

theorem wanted_ignore (gs : List (Option Nat)) : wanted .ignore gs = some (gs.filterMap id) := by
  induction gs with
  | nil => rfl
  | cons g gs ih => cases g <;> simp [wanted, ih]

/-! ## The text of a character -/

theorem hexd_digit {v : Nat} (h : v < 16) : HexDigit (hexd v) v := by
  unfold hexd
  by_cases h1 : v < 10
  · rw [if_pos h1]
    exact .dec v h1
  · rw [if_neg h1]
    have := HexDigit.lower (v - 10) (by omega)
    rwa [show 10 + (v - 10) = v by omega] at this

theorem hexd_range {v : Nat} (h : v < 16) : 0x30 ≤ hexd v ∧ hexd v < 0x67 := by
  unfold hexd
  split <;> omega

theorem uEscape_hex {v : Nat} (h : v < 0x10000) : ∃ x, uEscape v = 0x5C :: 0x75 :: x ∧ Hex4 x v := by
  refine ⟨_, rfl, ?_⟩
  have := Hex4.mk (hexd_digit (v := v / 4096) (by omega)) (hexd_digit (v := v / 256 % 16) (by omega))
    (hexd_digit (v := v / 16 % 16) (by omega)) (hexd_digit (v := v % 16) (by omega))
  rwa [show 4096 * (v / 4096) + 256 * (v / 256 % 16) + 16 * (v / 16 % 16) + v % 16 = v by omega] at this

theorem uEscape_range {v : Nat} (h : v < 0x10000) : ∀ b ∈ uEscape v, 0x20 ≤ b ∧ b < 0x7F := by
  intro b hb
  unfold uEscape at hb
  have h1 := hexd_range (v := v / 4096) (by omega)
  have h2 := hexd_range (v := v / 256 % 16) (by omega)
  have h3 := hexd_range (v := v / 16 % 16) (by omega)
  have h4 := hexd_range (v := v % 16) (by omega)
  simp only [List.mem_cons, List.not_mem_nil, or_false] at hb
  omega

theorem short_lookup {c l : Nat} (h : shortEscapes.lookup c = some l) :
    (l, c) ∈ escapes ∧ c < 0x80 ∧ 0x20 ≤ l ∧ l < 0x7F := by
  have : ∀ x ∈ shortEscapes, (x.2, x.1) ∈ escapes ∧ x.1 < 0x80 ∧ 0x20 ≤ x.2 ∧ x.2 < 0x7F := by
    decide +kernel
  have hm : (c, l) ∈ shortEscapes := by
    have : ∀ ms : List (Nat × Nat), ms.lookup c = some l → (c, l) ∈ ms := by
      intro ms
      induction ms with
      | nil => simp
      | cons m ms ih =>
        obtain ⟨a, b⟩ := m
        rw [List.lookup_cons]
        by_cases hca : c = a
        · subst hca
          simp
          intro h; exact .inl h.symm
        · rw [show (c == a) = false by simpa using hca]
          intro h
          exact List.mem_cons_of_mem _ (ih h)
    exact this _ h
  exact this _ hm

theorem short_none {c : Nat} (h : shortEscapes.lookup c = none) : c ≠ 0x22 ∧ c ≠ 0x5C := by
  constructor <;> (rintro rfl; revert h; decide +kernel)

/-- the text of a character is one -/
theorem escaped_strChar (ascii : Bool) {c : Nat} (hc : Scalar c) : StrChar (escaped ascii c) (utf8 c) := by
  unfold escaped
  split
  · rename_i l hl
    have := short_lookup hl
    rw [utf8, if_pos this.2.1]
    exact .escape this.1
  · rename_i hl
    have hn := short_none hl
    split
    · split
      · rename_i hlt
        obtain ⟨x, e, hx⟩ := uEscape_hex hlt
        rw [e]
        exact .unicode hx hc
      · rename_i hge
        have hlt : c < 0x110000 := by unfold Scalar at hc; omega
        obtain ⟨x, e, hx⟩ := uEscape_hex (v := 0xD800 + (c - 0x10000) / 0x400) (by omega)
        obtain ⟨x', e', hx'⟩ := uEscape_hex (v := 0xDC00 + (c - 0x10000) % 0x400) (by omega)
        have := StrChar.pair hx hx' (by omega) (by omega) (by omega) (by omega)
        rw [e, e']
        rwa [show 0x10000 + (0xD800 + (c - 0x10000) / 0x400 - 0xD800) * 0x400 +
          (0xDC00 + (c - 0x10000) % 0x400 - 0xDC00) = c by omega] at this
    · rename_i hnot
      exact .plain hc (by omega) hn.1 hn.2

theorem escapedAll_strChars (ascii : Bool) {cs : List Nat} (h : ∀ c ∈ cs, Scalar c) :
    StrChars (escapedAll ascii cs) (utf8All cs) := by
  induction cs with
  | nil => exact .nil
  | cons c cs ih => exact .cons (escaped_strChar ascii (h c (by simp))) (ih fun d hd => h d (by simp [hd]))

/-- with `ensure_ascii` only printable characters of ASCII are written -/
theorem escaped_ascii {c : Nat} (hc : Scalar c) : ∀ b ∈ escaped true c, 0x20 ≤ b ∧ b < 0x7F := by
  unfold escaped
  split
  · rename_i l hl
    have := short_lookup hl
    intro b hb
    simp only [List.mem_cons, List.not_mem_nil, or_false] at hb
    omega
  · split
    · split
      · rename_i hlt
        exact uEscape_range hlt
      · have hlt : c < 0x110000 := by unfold Scalar at hc; omega
        intro b hb
        rcases List.mem_append.mp hb with hb | hb
        · exact uEscape_range (by omega) b hb
        · exact uEscape_range (by omega) b hb
    · rename_i hnot
      have : 0x20 ≤ c ∧ c < 0x7F := by
        constructor
        · exact Nat.le_of_not_lt fun h => hnot (.inl h)
        · exact Nat.lt_of_not_le fun h => hnot (.inr ⟨rfl, h⟩)
      rw [utf8, if_pos (by omega)]
      intro b hb
      simp only [List.mem_cons, List.not_mem_nil, or_false] at hb
      omega

theorem escapedAll_ascii {cs : List Nat} (h : ∀ c ∈ cs, Scalar c) :
    ∀ b ∈ escapedAll true cs, 0x20 ≤ b ∧ b < 0x7F := by
  induction cs with
  | nil => simp [escapedAll]
  | cons c cs ih =>
    intro b hb
    rcases List.mem_append.mp hb with hb | hb
    · exact escaped_ascii (h c (by simp)) b hb
    · exact ih (fun d hd => h d (by simp [hd])) b hb

/-- the bytes of well-formed text -/
theorem utf8All_lt {cs : List Nat} (h : ∀ c ∈ cs, Scalar c) : ∀ b ∈ utf8All cs, b < 256 := by
  induction cs with
  | nil => simp [utf8All]
  | cons c cs ih =>
    intro b hb
    rcases List.mem_append.mp hb with hb | hb
    · have hc := h c (by simp)
      rcases utf8_cases hc with ⟨h1, e⟩ | ⟨x, y, e, h⟩ | ⟨x, y, z, e, h⟩ | ⟨x, y, z, w, e, h⟩ <;>
        rw [e] at hb <;> simp only [List.mem_cons, List.not_mem_nil, or_false] at hb <;> omega
    · exact ih (fun d hd => h d (by simp [hd])) b hb

end Verif.Json
