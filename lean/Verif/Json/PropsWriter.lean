import Verif.Json.ReadBackLemmas
import Verif.Json.ScriptsModel

/-!
# Properties of writing JSON (C113, C114, C115)
-/

namespace Verif.Json
open Spec

/-! ## Lemmas -/

/-- the indentation for a depth: so many columns per level, the first 512 of them the character given,
the others blanks -/
def Spec.columns (indent : Int) (ic : Nat) : Option (Nat → Bytes) :=
  if 0 ≤ indent then
    some fun k => List.replicate (min (k * indent.toNat) 512) ic ++
      List.replicate (k * indent.toNat - 512) 0x20
  else none

theorem dump_result (fl : Floats F) (indent : Int) (hi : indent ≤ 1024) (ic : Nat) (ascii : Bool)
    (h : Handler) (v : Json F) (hv : Held v) :
    ((∀ s ∈ strings v, Writable h s) ∧
      dump fl indent ic ascii h v = .ok (layV fl h ascii (columns indent ic) 0 v)) ∨
    ((∃ s ∈ strings v, ¬ Writable h s) ∧ dump fl indent ic ascii h v = .throws "type_error.316") := by
  have e512 : List.replicate 512 ic = pad ic 512 := by
    unfold pad
    rw [Nat.min_self, Nat.sub_self, List.replicate_zero, List.append_nil]
  unfold dump columns
  rw [e512]
  by_cases hp : 0 ≤ indent
  · have := dumpV_pretty fl ⟨decide (0 ≤ indent), ascii, indent.toNat, h⟩ ic (by simpa using hp)
      (by simp only; omega) v 0 512 hv (by omega) (by omega) (.inl rfl)
    rw [Nat.zero_mul] at this
    rw [if_pos hp]
    rcases this with ⟨h1, L', _, h2⟩ | ⟨h1, h2⟩
    · exact .inl ⟨h1, by rw [h2]; rfl⟩
    · exact .inr ⟨h1, by rw [h2]; rfl⟩
  · have := dumpV_compact fl ⟨decide (0 ≤ indent), ascii, indent.toNat, h⟩ ic 512 0 (by simpa using hp)
      v 0 hv
    rw [if_neg hp]
    rcases this with ⟨h1, L', _, h2⟩ | ⟨h1, h2⟩
    · exact .inl ⟨h1, by rw [h2]; rfl⟩
    · exact .inr ⟨h1, by rw [h2]; rfl⟩

theorem columns_ws (indent : Int) {ic : Nat} (h : Ws [ic]) : WsInd (columns indent ic) := by
  unfold columns
  split
  · intro n
    refine Ws.app ?_ ?_
    · intro c hc
      rw [List.mem_replicate] at hc
      exact h c (by simp [hc.2])
    · intro c hc
      rw [List.mem_replicate] at hc
      exact .inl hc.2
  · trivial

mutual
theorem held_strings : ∀ (v : Json F), Held v → ∀ s ∈ strings v, ∀ b ∈ s, b < 256
  | .null, _, s, hs | .bool _, _, s, hs | .int _, _, s, hs | .uint _, _, s, hs | .float _, _, s, hs => by
    simp [strings] at hs
  | .str s, h, s', hs => by
    rw [Held] at h
    simp only [strings, List.mem_cons, List.not_mem_nil, or_false] at hs
    subst hs
    exact h
  | .arr xs, h, s, hs => by rw [Held] at h; rw [strings] at hs; exact held_stringsL xs h s hs
  | .obj ms, h, s, hs => by rw [Held] at h; rw [strings] at hs; exact held_stringsM ms h s hs
theorem held_stringsL : ∀ (vs : List (Json F)), HeldL vs → ∀ s ∈ stringsL vs, ∀ b ∈ s, b < 256
  | [], _, s, hs => by simp [stringsL] at hs
  | v :: vs, h, s, hs => by
    rw [HeldL] at h
    rw [stringsL] at hs
    rcases List.mem_append.mp hs with hs | hs
    · exact held_strings v h.1 s hs
    · exact held_stringsL vs h.2 s hs
theorem held_stringsM : ∀ (ms : List (Bytes × Json F)), HeldM ms → ∀ s ∈ stringsM ms, ∀ b ∈ s, b < 256
  | [], _, s, hs => by simp [stringsM] at hs
  | (k, v) :: ms, h, s, hs => by
    rw [HeldM] at h
    rw [stringsM] at hs
    rcases List.mem_cons.mp hs with rfl | hs
    · exact h.1
    · rcases List.mem_append.mp hs with hs | hs
      · exact held_strings v h.2.1 s hs
      · exact held_stringsM ms h.2.2 s hs
end

theorem writable_iff {h : Handler} {s : Bytes} (hs : ∀ b ∈ s, b < 256) :
    Writable h s ↔ (h = .strict → Utf8 s) := by
  unfold Writable
  constructor
  · intro hw e; exact (none_parts hs).mp (hw e)
  · intro hu e; exact (none_parts hs).mpr (hu e)

theorem sepBy_all {P : Nat → Prop} {sep : Bytes} (hsep : ∀ b ∈ sep, P b) :
    ∀ (ts : List Bytes), (∀ t ∈ ts, ∀ b ∈ t, P b) → ∀ b ∈ sepBy sep ts, P b
  | [], _, b, hb => by simp [sepBy] at hb
  | [t], h, b, hb => h t (by simp) b (by simpa [sepBy] using hb)
  | t :: t' :: ts, h, b, hb => by
    rw [sepBy, List.mem_append, List.mem_append] at hb
    rcases hb with (hb | hb) | hb
    · exact h t (by simp) b hb
    · exact hsep b hb
    · exact sepBy_all hsep (t' :: ts) (fun u hu => h u (by simp [hu])) b hb

/-- the bytes of a line: no control characters, and with `ensure_ascii` nothing above `~` -/
def Spec.Line (ascii : Bool) (b : Nat) : Prop := 0x20 ≤ b ∧ (ascii = true → b < 0x7F)

theorem escaped_line (ascii : Bool) {c : Nat} (hc : Scalar c) : ∀ b ∈ escaped ascii c, Line ascii b := by
  cases ascii with
  | true => exact fun b hb => ⟨(escaped_ascii hc b hb).1, fun _ => (escaped_ascii hc b hb).2⟩
  | false =>
    intro b hb
    refine ⟨?_, by simp⟩
    unfold escaped at hb
    revert hb
    split
    · rename_i l hl
      have := short_lookup hl
      intro hb
      simp only [List.mem_cons, List.not_mem_nil, or_false] at hb
      omega
    · split
      · split
        · rename_i hlt
          exact fun hb => (uEscape_range hlt b hb).1
        · have hlt : c < 0x110000 := by unfold Scalar at hc; omega
          intro hb
          rcases List.mem_append.mp hb with hb | hb
          · exact (uEscape_range (by omega) b hb).1
          · exact (uEscape_range (by omega) b hb).1
      · rename_i hnot
        intro hb
        have h20 : 0x20 ≤ c := Nat.le_of_not_lt fun h => hnot (.inl h)
        rcases utf8_cases hc with ⟨h1, e⟩ | ⟨x, y, e, h⟩ | ⟨x, y, z, e, h⟩ | ⟨x, y, z, w, e, h⟩ <;>
          rw [e] at hb <;> simp only [List.mem_cons, List.not_mem_nil, or_false] at hb <;> omega

theorem quoted_line (h : Handler) (ascii : Bool) {s : Bytes} (hs : ∀ b ∈ s, b < 256) :
    ∀ b ∈ quoted h ascii s, Line ascii b := by
  have all : ∀ (cs : List Nat), (∀ c ∈ cs, Scalar c) → ∀ b ∈ escapedAll ascii cs, Line ascii b := by
    intro cs
    induction cs with
    | nil => simp [escapedAll]
    | cons c cs ih =>
      intro h b hb
      rcases List.mem_append.mp hb with hb | hb
      · exact escaped_line ascii (h c (by simp)) b hb
      · exact ih (fun d hd => h d (by simp [hd])) b hb
  intro b hb
  have hq : Line ascii 0x22 := ⟨by omega, fun _ => by omega⟩
  unfold quoted at hb
  rw [List.mem_cons, List.mem_append] at hb
  rcases hb with rfl | hb | hb
  · exact hq
  · exact all _ (chars_scalar h hs) b hb
  · simp at hb; rw [hb]; exact hq

theorem digit_line (ascii : Bool) {c : Nat} (h : Digit c) : Line ascii c := by
  unfold Digit at h
  exact ⟨by omega, fun _ => by omega⟩

theorem integer_line (ascii : Bool) (i : Int) : ∀ b ∈ integer i, Line ascii b := by
  intro b hb
  unfold integer at hb
  split at hb
  · rcases List.mem_cons.mp hb with rfl | hb
    · exact ⟨by omega, fun _ => by omega⟩
    · exact digit_line ascii (digits_digit _ b hb)
  · exact digit_line ascii (digits_digit _ b hb)

theorem intPart_line (ascii : Bool) {i : Bytes} (h : IntPart i) : ∀ b ∈ i, Line ascii b := by
  rcases h with rfl | h
  · intro b hb
    simp at hb
    subst hb
    exact ⟨by omega, fun _ => by omega⟩
  · exact fun b hb => digit_line ascii (h.1.2 b hb)

theorem numText_line (ascii : Bool) {sg i f e : Bytes} (h1 : Sign sg) (h2 : IntPart i) (h3 : Frac f)
    (h4 : Exp e) : ∀ b ∈ sg ++ i ++ f ++ e, Line ascii b := by
  intro b hb
  simp only [List.mem_append] at hb
  rcases hb with ((hb | hb) | hb) | hb
  · rcases h1 with rfl | rfl
    · cases hb
    · simp at hb
      subst hb
      exact ⟨by omega, fun _ => by omega⟩
  · exact intPart_line ascii h2 b hb
  · rcases h3 with rfl | ⟨ds, hd, rfl⟩
    · cases hb
    · rcases List.mem_cons.mp hb with rfl | hb
      · exact ⟨by omega, fun _ => by omega⟩
      · exact digit_line ascii (hd.2 b hb)
  · rcases h4 with rfl | ⟨m, s, ds, hm, hs, hd, rfl⟩
    · cases hb
    · rcases List.mem_cons.mp hb with rfl | hb
      · rcases hm with rfl | rfl <;> exact ⟨by omega, fun _ => by omega⟩
      · rcases List.mem_append.mp hb with hb | hb
        · rcases hs with rfl | rfl | rfl
          · cases hb
          · simp at hb; subst hb; exact ⟨by omega, fun _ => by omega⟩
          · simp at hb; subst hb; exact ⟨by omega, fun _ => by omega⟩
        · exact digit_line ascii (hd.2 b hb)

theorem block_line (ascii : Bool) {op cl d : Nat} (h1 : Line ascii op) (h2 : Line ascii cl) {ts : List Bytes}
    (h : ∀ t ∈ ts, ∀ b ∈ t, Line ascii b) : ∀ b ∈ block op cl none d ts, Line ascii b := by
  intro b hb
  cases ts with
  | nil =>
    simp only [block, List.mem_cons, List.not_mem_nil, or_false] at hb
    rcases hb with rfl | rfl
    · exact h1
    · exact h2
  | cons t ts =>
    rw [block] at hb
    · simp only [List.mem_cons, List.mem_append, List.not_mem_nil, or_false] at hb
      rcases hb with rfl | hb | rfl
      · exact h1
      · refine sepBy_all ?_ (t :: ts) h b hb
        intro b hb
        simp at hb
        subst hb
        exact ⟨by omega, fun _ => by omega⟩
      · exact h2
    · simp

mutual
theorem lay_line (fl : Floats F) (hfl : Exact fl) (h : Handler) (ascii : Bool) :
    ∀ (v : Json F) (d : Nat), Held v → ∀ b ∈ layV fl h ascii none d v, Line ascii b
  | .null, d, _, b, hb => by
    simp only [layV, List.mem_cons, List.not_mem_nil, or_false] at hb
    exact ⟨by omega, fun _ => by omega⟩
  | .bool x, d, _, b, hb => by
    cases x <;> (simp [layV] at hb; exact ⟨by omega, fun _ => by omega⟩)
  | .int i, d, _, b, hb => by rw [layV] at hb; exact integer_line ascii i b hb
  | .uint n, d, _, b, hb => by rw [layV] at hb; exact integer_line ascii n b hb
  | .float x, d, _, b, hb => by
    rw [layV] at hb
    by_cases hx : fl.finite x = true
    · rw [if_pos hx] at hb
      obtain ⟨_, sg, i, f, e, h1, h2, h3, h4, _, h6⟩ := hfl x hx
      rw [h6] at hb
      exact numText_line ascii h1 h2 h3 h4 b hb
    · rw [if_neg hx] at hb
      simp only [List.mem_cons, List.not_mem_nil, or_false] at hb
      exact ⟨by omega, fun _ => by omega⟩
  | .str s, d, hh, b, hb => by
    rw [Held] at hh
    rw [layV] at hb
    exact quoted_line h ascii hh b hb
  | .arr xs, d, hh, b, hb => by
    rw [Held] at hh
    rw [layV] at hb
    exact block_line ascii ⟨by omega, fun _ => by omega⟩ ⟨by omega, fun _ => by omega⟩
      (lay_lineL fl hfl h ascii xs (d + 1) hh) b hb
  | .obj ms, d, hh, b, hb => by
    rw [Held] at hh
    rw [layV] at hb
    exact block_line ascii ⟨by omega, fun _ => by omega⟩ ⟨by omega, fun _ => by omega⟩
      (lay_lineM fl hfl h ascii ms (d + 1) hh) b hb
theorem lay_lineL (fl : Floats F) (hfl : Exact fl) (h : Handler) (ascii : Bool) :
    ∀ (vs : List (Json F)) (d : Nat), HeldL vs → ∀ t ∈ layL fl h ascii none d vs, ∀ b ∈ t, Line ascii b
  | [], d, _, t, ht, b, hb => by rw [layL] at ht; cases ht
  | v :: vs, d, hh, t, ht, b, hb => by
    rw [HeldL] at hh
    rw [layL] at ht
    rcases List.mem_cons.mp ht with rfl | ht
    · exact lay_line fl hfl h ascii v d hh.1 b hb
    · exact lay_lineL fl hfl h ascii vs d hh.2 t ht b hb
theorem lay_lineM (fl : Floats F) (hfl : Exact fl) (h : Handler) (ascii : Bool) :
    ∀ (ms : List (Bytes × Json F)) (d : Nat), HeldM ms →
      ∀ t ∈ layM fl h ascii none d ms, ∀ b ∈ t, Line ascii b
  | [], d, _, t, ht, b, hb => by rw [layM] at ht; cases ht
  | (k, v) :: ms, d, hh, t, ht, b, hb => by
    rw [HeldM] at hh
    rw [layM] at ht
    rcases List.mem_cons.mp ht with rfl | ht
    · rw [List.mem_append, List.mem_append] at hb
      rcases hb with (hb | hb) | hb
      · exact quoted_line h ascii hh.1 b hb
      · simp [colon] at hb
        subst hb
        exact ⟨by omega, fun _ => by omega⟩
      · exact lay_line fl hfl h ascii v d hh.2.1 b hb
    · exact lay_lineM fl hfl h ascii ms d hh.2.2 t ht b hb
end

/-! ## Floating-point numbers for the examples -/

/-- natural numbers as floating-point numbers, `7` written as `7.0` -/
def exFloats : Floats Nat where
  toFloat t := decimal (t.takeWhile fun c => 0x30 ≤ c ∧ c ≤ 0x39)
  finite _ := true
  shortest n := digits n ++ [0x2E, 0x30]

theorem exFloats_exact : Exact exFloats := by
  intro n _
  constructor
  · show decimal ((digits n ++ [0x2E, 0x30]).takeWhile _) = n
    rw [List.takeWhile_append_of_pos (by
      intro c hc
      have := digits_digit n c hc
      unfold Digit at this
      simpa using this)]
    simp [decimal_digits]
  · exact ⟨[], digits n, [0x2E, 0x30], [], .inl rfl, digits_intPart n,
      .inr ⟨[0x30], ⟨by simp, by simp [Digit]⟩, rfl⟩, .inl rfl, .inl (by simp), by simp [exFloats]⟩

/-- `{"é":[1.0,-2,"a\n"]}` -/
def exValue : Json Nat :=
  .obj [([0xC3, 0xA9], .arr [.float 1, .int (-2), .str [0x61, 0x0A]])]

theorem utf8_ascii {s : Bytes} (h : ∀ b ∈ s, b < 0x80) : Utf8 s := by
  refine ⟨s, fun c hc => ?_, ?_⟩
  · have := h c hc
    unfold Scalar
    omega
  · induction s with
    | nil => rfl
    | cons b s ih =>
      rw [utf8All, ← ih fun x hx => h x (by simp [hx]), utf8, if_pos (h b (by simp))]
      rfl

theorem exValue_utf8 : ∀ s ∈ strings exValue, Utf8 s := by
  intro s hs
  simp [exValue, strings, stringsL, stringsM] at hs
  rcases hs with rfl | rfl
  · exact ⟨[0xE9], by simp [Scalar], by decide⟩
  · exact utf8_ascii (by simp)

theorem exValue_held : Held exValue := by
  simp [exValue, Held, HeldM, HeldL]

theorem exValue_ordered : Ordered exValue := by
  simp [exValue, Ordered, OrderedM, OrderedL]

/-! ## C113: what is written is JSON, and is read back -/

/-- **C113** A value whose strings are UTF-8 is written without an exception, for every indentation of at most
1024 columns of white space, with or without `ensure_ascii`, and for every error handler; what is
written is a JSON text of RFC 8259 for the value, and is read back as the value – an integer that is
not negative as an unsigned one, a number that is not finite as `null`. -/
theorem C113_read_back (fl : Floats F) (hfl : Exact fl) (indent : Int) (hi : indent ≤ 1024) (ic : Nat)
    (hic : Ws [ic]) (ascii : Bool) (h : Handler) (v : Json F) (hv : Held v) (ho : Ordered v)
    (hu : ∀ s ∈ strings v, Utf8 s) :
    ∃ t, dump fl indent ic ascii h v = .ok t ∧ Value fl t (canon fl v) ∧
      parseAll fl t = .ok (canon fl v) := by
  have hw : ∀ s ∈ strings v, Writable h s :=
    fun s hs => (writable_iff (held_strings v hv s hs)).mpr fun _ => hu s hs
  rcases dump_result fl indent hi ic ascii h v hv with ⟨_, e⟩ | ⟨⟨s, hs, hn⟩, _⟩
  · have hval := lay_value fl hfl h ascii (columns indent ic) (columns_ws indent hic) v 0 hv
    rw [mended_canon fl h v hu] at hval
    refine ⟨_, e, hval, (C110_reads_iff fl _ _).mpr ?_⟩
    exact ⟨[], [], _, [], [], canon fl v, .inl rfl, by simp [Ws], hval, by simp [Ws], .inl rfl,
      by simp, (tidy_canon fl v ho).symm⟩
  · exact absurd (hw s hs) hn

/-- four columns of tabs -/
example : ∃ t, dump exFloats 4 0x09 true .strict exValue = .ok t ∧
    Value exFloats t (canon exFloats exValue) ∧ parseAll exFloats t = .ok (canon exFloats exValue) :=
  C113_read_back exFloats exFloats_exact 4 (by decide) 0x09 (by simp [Ws]) true .strict exValue
    exValue_held exValue_ordered exValue_utf8

/-- **C113** Without indentation what is written is one line: it has no control character; with `ensure_ascii` it
has only the printable characters of ASCII. -/
theorem C113_one_line (fl : Floats F) (hfl : Exact fl) (indent : Int) (hi : indent < 0) (ic : Nat)
    (ascii : Bool) (h : Handler) (v : Json F) (hv : Held v) {t : Bytes}
    (ht : dump fl indent ic ascii h v = .ok t) : ∀ b ∈ t, 0x20 ≤ b ∧ (ascii = true → b < 0x7F) := by
  rcases dump_result fl indent (by omega) ic ascii h v hv with ⟨_, e⟩ | ⟨_, e⟩
  · rw [e] at ht
    cases ht
    rw [columns, if_neg (by omega)]
    exact lay_line fl hfl h ascii v 0 hv
  · rw [e] at ht
    cases ht

example : ∃ t, dump exFloats (-1) 0x20 true .strict exValue = .ok t ∧
    ∀ b ∈ t, 0x20 ≤ b ∧ (true = true → b < 0x7F) := by
  obtain ⟨t, ht, _⟩ := C113_read_back exFloats exFloats_exact (-1) (by decide) 0x20 (by simp [Ws]) true
    .strict exValue exValue_held exValue_ordered exValue_utf8
  exact ⟨t, ht, C113_one_line exFloats exFloats_exact (-1) (by decide) 0x20 true .strict exValue
    exValue_held ht⟩

/-- **C113** Integers: decimal, without leading zeros, for all 64-bit values including the least one. -/
theorem C113_integers (fl : Floats F) (indent : Int) (hi : indent ≤ 1024) (ic : Nat) (ascii : Bool)
    (h : Handler) :
    (∀ n : Nat, n < 2 ^ 64 → ∃ ds, IntPart ds ∧ decimal ds = n ∧
      dump fl indent ic ascii h (.uint n) = .ok ds) ∧
    (∀ i : Int, -(2 ^ 63) ≤ i → i < 2 ^ 63 → ∃ ds, IntPart ds ∧ decimal ds = i.natAbs ∧
      dump fl indent ic ascii h (.int i) = .ok (if i < 0 then 0x2D :: ds else ds)) := by
  constructor
  · intro n hn
    refine ⟨digits n, digits_intPart n, decimal_digits n, ?_⟩
    rcases dump_result fl indent hi ic ascii h (.uint n) (by rw [Held]; exact hn) with
      ⟨_, e⟩ | ⟨⟨s, hs, _⟩, _⟩
    · rw [e, layV, integer, if_neg (by omega)]; rfl
    · simp [strings] at hs
  · intro i h1 h2
    refine ⟨digits i.natAbs, digits_intPart _, decimal_digits _, ?_⟩
    rcases dump_result fl indent hi ic ascii h (.int i) (by rw [Held]; exact ⟨h1, h2⟩) with
      ⟨_, e⟩ | ⟨⟨s, hs, _⟩, _⟩
    · rw [e, layV, integer]
    · simp [strings] at hs

/-- `-9223372036854775808` -/
example (fl : Floats F) : ∃ ds, IntPart ds ∧ decimal ds = 2 ^ 63 ∧
    dump fl (-1) 0x20 false .strict (.int (-(2 ^ 63))) = .ok (0x2D :: ds) :=
  ((C113_integers fl (-1) (by decide) 0x20 false .strict).2 (-(2 ^ 63)) (by decide) (by decide)).imp
    fun _ h => ⟨h.1, by simpa using h.2.1, by simpa using h.2.2⟩

/-- **C113** `o << j` writes what `dump` returns for the width of the stream, if it is positive, and for -1 otherwise;
the fill character is the indentation character. -/
theorem C113_stream_dump (fl : Floats F) (width : Int) (fill : Nat) (v : Json F) :
    insertStream fl width fill v = dump fl (if 0 < width then width else -1) fill false .strict v := by
  by_cases h : 0 < width
  · have : 0 ≤ width := by omega
    simp [insertStream, dump, h, this, -List.reduceReplicate]
  · simp [insertStream, dump, h, -List.reduceReplicate]

set_option maxRecDepth 8192 in
example (fl : Floats F) : insertStream fl 2 0x20 (.arr [.bool true]) = .ok [0x5B, 0x0A, 0x20, 0x20, 0x74, 0x72, 0x75, 0x65, 0x0A, 0x5D] ∧
    insertStream fl 0 0x20 (.arr [.bool true]) = .ok [0x5B, 0x74, 0x72, 0x75, 0x65, 0x5D] := by
  constructor <;> rfl

/-- writing values to a stream, each on its own line: `o << j << '\n'` -/
def writeMany (fl : Floats F) : List (Json F) → Outcome Bytes
  | [] => .ok []
  | v :: vs =>
    (insertStream fl 0 0x20 v).bind fun t =>
    (writeMany fl vs).bind fun ts => .ok (t ++ 0x0A :: ts)

/-- **C113** Values written to a stream, each followed by the end of the line, are read from it one after the other,
however many there are. -/
theorem C113_lines (fl : Floats F) (hfl : Exact fl) (vs : List (Json F))
    (h : ∀ v ∈ vs, Held v ∧ Ordered v ∧ ∀ s ∈ strings v, Utf8 s) :
    ∃ t rest, writeMany fl vs = .ok t ∧ readMany fl vs.length t = .ok (vs.map (canon fl), rest) ∧
      Ws rest := by
  have key : ∀ (vs : List (Json F)), (∀ v ∈ vs, Held v ∧ Ordered v ∧ ∀ s ∈ strings v, Utf8 s) →
      ∃ t, writeMany fl vs = .ok t ∧ ∀ w, Ws w → ∃ s r, w ++ t = s ++ r ∧
        Sequence fl s (vs.map (canon fl)) ∧ Ws r := by
    intro vs
    induction vs with
    | nil => exact fun _ => ⟨[], rfl, fun w hw => ⟨[], w, by simp, .nil, hw⟩⟩
    | cons v vs ih =>
      intro h
      obtain ⟨ts, e1, h1⟩ := ih fun x hx => h x (by simp [hx])
      obtain ⟨hv, ho, hu⟩ := h v (by simp)
      obtain ⟨t, e2, hval, _⟩ := C113_read_back fl hfl (-1) (by decide) 0x20 (by simp [Ws]) false .strict
        v hv ho hu
      refine ⟨t ++ 0x0A :: ts, ?_, fun w hw => ?_⟩
      · rw [writeMany, C113_stream_dump, if_neg (by omega), e2, e1]
        rfl
      · by_cases hn : IsNumber (canon fl v)
        · obtain ⟨s, r, e3, h2, h3⟩ := h1 [] (by simp [Ws])
          refine ⟨w ++ t ++ 0x0A :: s, r, ?_, .number hw hval hn (by simp [Ws]) h2, h3⟩
          rw [List.nil_append] at e3
          simp [e3]
        · obtain ⟨s, r, e3, h2, h3⟩ := h1 [0x0A] (by simp [Ws])
          refine ⟨w ++ t ++ s, r, ?_, .value hw hval hn h2, h3⟩
          rw [List.append_assoc, List.append_assoc, ← e3]
          simp
  obtain ⟨t, e, hk⟩ := key vs h
  obtain ⟨s, r, e3, h2, h3⟩ := hk [] (by simp [Ws])
  refine ⟨t, r, e, ?_, h3⟩
  have := C111_sequence_partial fl h2 r
  rw [List.length_map, List.map_map] at this
  rw [List.nil_append] at e3
  rw [e3, this]
  congr 2
  exact List.map_congr_left fun v hv => tidy_canon fl v (h v hv).2.1

example : ∃ t rest, writeMany exFloats [exValue, .int 5, exValue] = .ok t ∧
    readMany exFloats 3 t = .ok ([canon exFloats exValue, .uint 5, canon exFloats exValue], rest) ∧
    Ws rest := by
  refine C113_lines exFloats exFloats_exact [exValue, .int 5, exValue] ?_
  intro v hv
  simp only [List.mem_cons, List.not_mem_nil, or_false] at hv
  rcases hv with rfl | rfl | rfl
  · exact ⟨exValue_held, exValue_ordered, exValue_utf8⟩
  · exact ⟨by simp [Held], by simp [Ordered], by simp [strings]⟩
  · exact ⟨exValue_held, exValue_ordered, exValue_utf8⟩

/-! ## C114: strings that are not UTF-8 -/

/-- **C114** With the handler `strict` a value is written exactly if all its strings, names included, are UTF-8;
otherwise `type_error.316` is thrown. -/
theorem C114_strict_iff (fl : Floats F) (indent : Int) (hi : indent ≤ 1024) (ic : Nat) (ascii : Bool)
    (v : Json F) (hv : Held v) :
    ((∃ t, dump fl indent ic ascii .strict v = .ok t) ↔ ∀ s ∈ strings v, Utf8 s) ∧
    ((¬ ∀ s ∈ strings v, Utf8 s) → dump fl indent ic ascii .strict v = .throws "type_error.316") := by
  have hw : ∀ s ∈ strings v, (Writable .strict s ↔ Utf8 s) := fun s hs => by
    rw [writable_iff (held_strings v hv s hs)]; simp
  rcases dump_result fl indent hi ic ascii .strict v hv with ⟨h1, e⟩ | ⟨⟨s, hs, hn⟩, e⟩
  · have hu : ∀ s ∈ strings v, Utf8 s := fun s hs => (hw s hs).mp (h1 s hs)
    exact ⟨⟨fun _ => hu, fun _ => ⟨_, e⟩⟩, fun h => absurd hu h⟩
  · refine ⟨⟨?_, fun hu => absurd ((hw s hs).mpr (hu s hs)) hn⟩, fun _ => e⟩
    rintro ⟨t, ht⟩
    rw [e] at ht
    cases ht

/-- a byte that stands alone, and the first two bytes of a character of three -/
example (fl : Floats F) : dump fl (-1) 0x20 false .strict (.str [0x61, 0xFF]) = .throws "type_error.316" := by
  rfl

example (fl : Floats F) : dump fl (-1) 0x20 false .strict (.arr [.str [0xE2, 0x82]]) =
    .throws "type_error.316" := by
  rfl

/-- **C114** With the handlers `replace` and `ignore` every value is written, and what is written is JSON; in it each
part of a string that is no character – the longest beginning of a character, or a byte that begins
none – is replaced by U+FFFD, or left out. -/
theorem C114_mended (fl : Floats F) (hfl : Exact fl) (indent : Int) (hi : indent ≤ 1024) (ic : Nat)
    (hic : Ws [ic]) (ascii : Bool) (h : Handler) (hh : h ≠ .strict) (v : Json F) (hv : Held v) :
    ∃ t, dump fl indent ic ascii h v = .ok t ∧ Value fl t (mended fl h v) ∧
      parseAll fl t = .ok (tidy (mended fl h v)) := by
  rcases dump_result fl indent hi ic ascii h v hv with ⟨_, e⟩ | ⟨⟨s, hs, hn⟩, _⟩
  · have hval := lay_value fl hfl h ascii (columns indent ic) (columns_ws indent hic) v 0 hv
    refine ⟨_, e, hval, (C110_reads_iff fl _ _).mpr ?_⟩
    exact ⟨[], [], _, [], [], mended fl h v, .inl rfl, by simp [Ws], hval, by simp [Ws], .inl rfl,
      by simp, rfl⟩
  · exact absurd (fun e => absurd e hh) hn

example : ∃ t, dump exFloats 2 0x20 true .replace (.arr [.str [0x61, 0xFF], .uint 5]) = .ok t ∧
    parseAll exFloats t = .ok (tidy (mended exFloats .replace (.arr [.str [0x61, 0xFF], .uint 5]))) :=
  have ⟨t, h, _, h'⟩ := C114_mended exFloats exFloats_exact 2 (by decide) 0x20 (by simp [Ws]) true .replace (by decide)
    (.arr [.str [0x61, 0xFF], .uint 5]) (by simp [Held, HeldL])
  ⟨t, h, h'⟩

/-- **C114** The text of a string, given the parts `gs` it falls into (there is exactly one list of parts,
`C114_parts`): the characters with their escapes; for the others U+FFFD, or nothing. -/
theorem C114_string (fl : Floats F) (indent : Int) (hi : indent ≤ 1024) (ic : Nat) (ascii : Bool)
    {s : Bytes} (hs : ∀ b ∈ s, b < 256) {gs : List (Option Nat)} (hg : Segs s gs) :
    dump fl indent ic ascii .replace (.str s) =
      .ok (0x22 :: (escapedAll ascii (gs.map fun g => g.getD 0xFFFD) ++ [0x22])) ∧
    dump fl indent ic ascii .ignore (.str s) =
      .ok (0x22 :: (escapedAll ascii (gs.filterMap id) ++ [0x22])) := by
  constructor
  · rcases dump_result fl indent hi ic ascii .replace (.str s) (by rw [Held]; exact hs) with
      ⟨_, e⟩ | ⟨⟨_, _, hn⟩, _⟩
    · rw [e, layV, quoted, chars, parts_eq hg, wanted_replace]; rfl
    · exact absurd (fun e => by cases e) hn
  · rcases dump_result fl indent hi ic ascii .ignore (.str s) (by rw [Held]; exact hs) with
      ⟨_, e⟩ | ⟨⟨_, _, hn⟩, _⟩
    · rw [e, layV, quoted, chars, parts_eq hg, wanted_ignore]; rfl
    · exact absurd (fun e => by cases e) hn

/-- **C114** Every string of bytes falls into parts in exactly one way. -/
theorem C114_parts {s : Bytes} (hs : ∀ b ∈ s, b < 256) : ∃ gs, Segs s gs ∧ ∀ gs', Segs s gs' → gs' = gs := by
  obtain ⟨gs, h⟩ := segs_exist hs
  exact ⟨gs, h, fun gs' h' => Segs.unique h' h⟩

/-- `a`, the beginning of `€` cut short, `b`, a byte that stands alone -/
theorem exSegs : Segs [0x61, 0xE2, 0x82, 0x62, 0xFF] [some 0x61, none, some 0x62, none] := by
  have h1 : utf8 0x61 = [0x61] := by decide
  have h2 : utf8 0x62 = [0x62] := by decide
  have hs : ∀ c, c < 0x80 → Scalar c := fun c hc => by unfold Scalar; omega
  have e := Segs.byte (b := 0xFF) (fun hB => by have := begins_one hB; omega) .nil
  have d := Segs.char (hs 0x62 (by omega)) e
  rw [h2] at d
  have c := Segs.cut (j := [0xE2, 0x82]) (by simp)
    ⟨0x20AC, by unfold Scalar; omega, by decide⟩
    (fun c hc he => by
      rcases utf8_cases hc with ⟨h1, e⟩ | ⟨x, y, e, h⟩ | ⟨x, y, z, e, h⟩ | ⟨x, y, z, w, e, h⟩ <;>
        rw [e] at he <;> simp at he
      omega)
    (by
      intro b s' hb
      simp only [List.cons_append, List.nil_append, List.cons.injEq] at hb
      intro hB
      have := begins_three hB
      omega) d
  have a := Segs.char (hs 0x61 (by omega)) c
  rw [h1] at a
  exact a

/-- `"a�b�"` -/
example (fl : Floats F) : dump fl (-1) 0x20 false .replace (.str [0x61, 0xE2, 0x82, 0x62, 0xFF]) =
    .ok [0x22, 0x61, 0xEF, 0xBF, 0xBD, 0x62, 0xEF, 0xBF, 0xBD, 0x22] :=
  (C114_string fl (-1) (by decide) 0x20 false (by simp) exSegs).1

example : ∃ t, dump exFloats (-1) 0x20 false .ignore (.str [0x61, 0xE2, 0x82, 0x62, 0xFF]) = .ok t ∧
    parseAll exFloats t = .ok (.str [0x61, 0x62]) := ⟨[0x22, 0x61, 0x62, 0x22], rfl, rfl⟩

/-- **C114** (what does not hold) With `replace` and with `ignore` two members of an object may be written with the
same name, and one of them is lost when the text is read. -/
theorem C114_members_lost_fails (fl : Floats F) :
    ∃ v : Json F, Held v ∧ Ordered v ∧ v.size = 2 ∧
      ∀ h, h ≠ Handler.strict → ∃ t w, dump fl (-1) 0x20 false h v = .ok t ∧ parseAll fl t = .ok w ∧
        w.size = 1 := by
  refine ⟨.obj [([0xFE], .uint 1), ([0xFF], .uint 2)], by simp [Held, HeldM], ?_, rfl, ?_⟩
  · simp [Ordered, OrderedM]
    decide
  · intro h hh
    cases h with
    | strict => exact absurd rfl hh
    | replace =>
      exact ⟨[0x7B, 0x22, 0xEF, 0xBF, 0xBD, 0x22, 0x3A, 0x31, 0x2C, 0x22, 0xEF, 0xBF, 0xBD, 0x22, 0x3A,
        0x32, 0x7D], .obj [([0xEF, 0xBF, 0xBD], .uint 2)], rfl, rfl, rfl⟩
    | ignore =>
      exact ⟨[0x7B, 0x22, 0x22, 0x3A, 0x31, 0x2C, 0x22, 0x22, 0x3A, 0x32, 0x7D],
        .obj [([], .uint 2)], rfl, rfl, rfl⟩

/-! ## C115: indentation -/

mutual
/-- how deep a value is nested -/
def Spec.depth : Json F → Nat
  | .arr xs => Spec.depthL xs
  | .obj ms => Spec.depthM ms
  | .null | .bool _ | .int _ | .uint _ | .float _ | .str _ => 0
/-- one more than the deepest element; 0 if there is none -/
def Spec.depthL : List (Json F) → Nat
  | [] => 0
  | v :: vs => max (Spec.depth v + 1) (Spec.depthL vs)
def Spec.depthM : List (Bytes × Json F) → Nat
  | [] => 0
  | (_, v) :: ms => max (Spec.depth v + 1) (Spec.depthM ms)
end

theorem block_congr {op cl d : Nat} {f g : Nat → Bytes} {ts : List Bytes}
    (h : ts ≠ [] → f d = g d ∧ f (d + 1) = g (d + 1)) :
    block op cl (some f) d ts = block op cl (some g) d ts := by
  cases ts with
  | nil => rfl
  | cons t ts =>
    have := h (by simp)
    rw [block, block, this.1, this.2]
    · simp
    · simp

mutual
theorem layV_congr (fl : Floats F) (h : Handler) (ascii : Bool) {f g : Nat → Bytes} :
    ∀ (v : Json F) (d : Nat), (∀ k, k ≤ d + depth v → f k = g k) →
      layV fl h ascii (some f) d v = layV fl h ascii (some g) d v
  | .null, d, _ | .bool _, d, _ | .int _, d, _ | .uint _, d, _ | .float _, d, _ | .str _, d, _ => by
    rw [layV, layV]
  | .arr xs, d, hk => by
    rw [depth] at hk
    rw [layV, layV, layL_congr fl h ascii xs d hk]
    refine block_congr fun hne => ?_
    cases xs with
    | nil => exact absurd (by rw [layL]) hne
    | cons x xs =>
      rw [depthL] at hk
      exact ⟨hk d (by omega), hk (d + 1) (by omega)⟩
  | .obj ms, d, hk => by
    rw [depth] at hk
    rw [layV, layV, layM_congr fl h ascii ms d hk]
    refine block_congr fun hne => ?_
    cases ms with
    | nil => exact absurd (by rw [layM]) hne
    | cons x xs =>
      obtain ⟨k, v⟩ := x
      rw [depthM] at hk
      exact ⟨hk d (by omega), hk (d + 1) (by omega)⟩
theorem layL_congr (fl : Floats F) (h : Handler) (ascii : Bool) {f g : Nat → Bytes} :
    ∀ (vs : List (Json F)) (d : Nat), (∀ k, k ≤ d + depthL vs → f k = g k) →
      layL fl h ascii (some f) (d + 1) vs = layL fl h ascii (some g) (d + 1) vs
  | [], d, _ => by rw [layL, layL]
  | v :: vs, d, hk => by
    rw [depthL] at hk
    rw [layL, layL, layV_congr fl h ascii v (d + 1) fun k hle => hk k (by omega),
      layL_congr fl h ascii vs d fun k hle => hk k (by omega)]
theorem layM_congr (fl : Floats F) (h : Handler) (ascii : Bool) {f g : Nat → Bytes} :
    ∀ (ms : List (Bytes × Json F)) (d : Nat), (∀ k, k ≤ d + depthM ms → f k = g k) →
      layM fl h ascii (some f) (d + 1) ms = layM fl h ascii (some g) (d + 1) ms
  | [], d, _ => by rw [layM, layM]
  | (k', v) :: ms, d, hk => by
    rw [depthM] at hk
    rw [layM, layM, layV_congr fl h ascii v (d + 1) fun k hle => hk k (by omega),
      layM_congr fl h ascii ms d fun k hle => hk k (by omega)]
    rfl
end

/-- **C115** Up to 1024 columns per level: the text is the value laid out with each element on its own line, as
many columns per level as asked for; the first 512 columns are the character asked for, the rest are
blanks.  With a negative number everything is on one line, without blanks. -/
theorem C115_layout (fl : Floats F) (indent : Int) (hi : indent ≤ 1024) (ic : Nat) (ascii : Bool)
    (h : Handler) (v : Json F) (hv : Held v) (hu : ∀ s ∈ strings v, Utf8 s) :
    dump fl indent ic ascii h v = .ok (layV fl h ascii
      (if 0 ≤ indent then
        some fun k => List.replicate (min (k * indent.toNat) 512) ic ++
          List.replicate (k * indent.toNat - 512) 0x20
      else none) 0 v) := by
  rcases dump_result fl indent hi ic ascii h v hv with ⟨_, e⟩ | ⟨⟨s, hs, hn⟩, _⟩
  · exact e
  · exact absurd ((writable_iff (held_strings v hv s hs)).mpr fun _ => hu s hs) hn

set_option maxRecDepth 20000 in
/-- ```
[
  {
    "a": 1
  },
  []
]
``` -/
example (fl : Floats F) : dump fl 2 0x20 false .strict (.arr [.obj [([0x61], .uint 1)], .arr []]) =
    .ok [0x5B, 0x0A, 0x20, 0x20, 0x7B, 0x0A, 0x20, 0x20, 0x20, 0x20, 0x22, 0x61, 0x22, 0x3A, 0x20, 0x31,
      0x0A, 0x20, 0x20, 0x7D, 0x2C, 0x0A, 0x20, 0x20, 0x5B, 0x5D, 0x0A, 0x5D] := by
  rfl

/-- **C115** (what holds) If the deepest line has at most 512 columns of indentation, all of them are the character asked
for. -/
theorem C115_indent_char_partial (fl : Floats F) (indent : Nat) (hi : indent ≤ 1024) (ic : Nat)
    (ascii : Bool) (h : Handler) (v : Json F) (hv : Held v) (hu : ∀ s ∈ strings v, Utf8 s)
    (hd : depth v * indent ≤ 512) :
    dump fl indent ic ascii h v =
      .ok (layV fl h ascii (some fun k => List.replicate (k * indent) ic) 0 v) := by
  rw [C115_layout fl indent (by omega) ic ascii h v hv hu, if_pos (by omega)]
  rw [layV_congr fl h ascii v 0]
  intro k hk
  have hle : k * indent ≤ 512 :=
    Nat.le_trans (Nat.mul_le_mul_right indent (show k ≤ depth v by omega)) hd
  rw [Int.toNat_natCast, Nat.min_eq_left hle, Nat.sub_eq_zero_of_le hle, List.replicate_zero,
    List.append_nil]

example : depth exValue * 4 ≤ 512 := by decide

/-- **C115** (what does not hold) Farther right blanks are written in place of the character asked for: here, with 300
tabs per level, a value without any string is written with a blank. -/
theorem C115_indent_char_fails (fl : Floats F) :
    ∃ t, dump fl 300 0x09 false .strict (.arr [.arr [.null]]) = .ok t ∧ 0x20 ∈ t := by
  have key : ∀ f : Nat → Bytes, 0x20 ∈ f 2 →
      0x20 ∈ layV fl .strict false (some f) 0 (.arr [.arr [.null]] : Json F) := by
    intro f hf
    simp [layV, layL, block, sepBy, hf]
  have e := C115_layout fl 300 (by decide) 0x09 false .strict (.arr [.arr [.null]])
    (by simp [Held, HeldL]) (by simp [strings, stringsL])
  rw [if_pos (by decide)] at e
  refine ⟨_, e, key _ ?_⟩
  exact List.mem_append.mpr (.inr (List.mem_replicate.mpr ⟨by decide, rfl⟩))

/-- the string of indentation is too short for more than 1024 columns -/
theorem grow_wide {step ic : Nat} (h : 1024 < step) :
    growIndent (List.replicate 512 ic) step = List.replicate 512 ic ++ List.replicate 512 0x20 := by
  rw [growIndent, List.length_replicate, if_pos (by omega)]

/-- **C115** (what does not hold) With more than 1025 columns per level, writing an array or object that is not empty reads
outside the string of indentation: undefined behaviour. -/
theorem C115_wide_fails (fl : Floats F) (indent : Int) (hi : 1025 < indent) (ic : Nat) (ascii : Bool)
    (h : Handler) :
    (∀ (x : Json F) (xs : List (Json F)), dump fl indent ic ascii h (.arr (x :: xs)) = .ub) ∧
    (∀ (m : Bytes × Json F) (ms : List (Bytes × Json F)),
      dump fl indent ic ascii h (.obj (m :: ms)) = .ub) := by
  have hl : (List.replicate 512 ic ++ List.replicate 512 0x20).length = 1024 := by
    rw [List.length_append, List.length_replicate, List.length_replicate]
  have hw : writeIndent (List.replicate 512 ic ++ List.replicate 512 0x20) (0 + indent.toNat) = .ub := by
    rw [writeIndent, hl, if_neg (by omega), if_neg (by omega)]
  have hp : decide (0 ≤ indent) = true := by simp; omega
  constructor
  · intro x xs
    rw [dump, dumpV, isEmpty_false, if_neg (by simp), if_pos hp, dumpL, if_pos hp]
    simp only [grow_wide (show 1024 < 0 + indent.toNat by omega), hw]
    rfl
  · intro m ms
    obtain ⟨k, v⟩ := m
    rw [dump, dumpV, isEmpty_false, if_neg (by simp), if_pos hp, dumpM, if_pos hp]
    simp only [grow_wide (show 1024 < 0 + indent.toNat by omega), hw]
    rfl

example (fl : Floats F) : dump fl 2000 0x20 false .strict (.arr [.uint 1]) = .ub :=
  (C115_wide_fails fl 2000 (by decide) 0x20 false .strict).1 _ _

/-- **C115** (what does not hold) With 1025 columns per level a byte 0 is written in front of an element: no JSON. -/
theorem C115_zero_byte_fails (fl : Floats F) (ic : Nat) (ascii : Bool) (h : Handler) :
    ∃ t, dump fl 1025 ic ascii h (.arr [.null]) = .ok t ∧ 0 ∈ t := by
  have hl : (List.replicate 512 ic ++ List.replicate 512 0x20).length = 1024 := by
    rw [List.length_append, List.length_replicate, List.length_replicate]
  have hw : writeIndent (List.replicate 512 ic ++ List.replicate 512 0x20) (0 + (1025 : Int).toNat) =
      .ok (List.replicate 512 ic ++ List.replicate 512 0x20 ++ [0]) := by
    rw [writeIndent, hl, if_neg (by decide), if_pos (by decide)]
  have hz : ∀ ind, writeIndent ind 0 = .ok [] := fun ind => by
    rw [writeIndent, if_pos (Nat.zero_le _), List.take_zero]
  have hp : decide ((0 : Int) ≤ 1025) = true := by decide
  rw [dump, dumpV, isEmpty_false, if_neg (by simp), if_pos hp, dumpL, if_pos hp]
  simp only [grow_wide (show 1024 < 0 + (1025 : Int).toNat by decide), hw, Outcome.bind, dumpV,
    List.isEmpty_nil, if_true, hz]
  refine ⟨_, rfl, ?_⟩
  generalize List.replicate 512 ic ++ List.replicate 512 0x20 = x
  simp

/-- **C115** Undefined behaviour, failed assertions and endless loops happen for no value if the indentation is at
most 1024: the text is written, or `type_error.316` is thrown. -/
theorem C115_outcomes (fl : Floats F) (indent : Int) (hi : indent ≤ 1024) (ic : Nat) (ascii : Bool)
    (h : Handler) (v : Json F) (hv : Held v) :
    (∃ t, dump fl indent ic ascii h v = .ok t) ∨
      dump fl indent ic ascii h v = .throws "type_error.316" := by
  rcases dump_result fl indent hi ic ascii h v hv with ⟨_, e⟩ | ⟨_, e⟩
  · exact .inl ⟨_, e⟩
  · exact .inr e

example : Held exValue := exValue_held

end Verif.Json
