import Verif.Json.CompareLemmas
import Verif.Json.PropsWriter
import Mathlib.Data.Int.Order.Basic

/-!
# C116: comparing JSON values
-/

namespace Verif.Json

open Spec

variable {F L : Type} [LinearOrder L]

mutual
theorem eqV_canon (fo : FloatOrder F L) (fl : Floats F) : ∀ (v : Json F), Held v →
    (∀ x ∈ floats v, fl.finite x = true ∧ fo.place x ≠ none) → eqV fo (canon fl v) v = true
  | .arr xs, hv, h => by
    rw [Held] at hv; rw [floats] at h
    simp only [canon, eqV]; exact eqL_canon fo fl xs hv h
  | .obj ms, hv, h => by
    rw [Held] at hv; rw [floats] at h
    simp only [canon, eqV]; exact eqM_canon fo fl ms hv h
  | .null, _, _ | .bool _, _, _ | .str _, _, _ | .uint _, _, _ => by simp [canon, eqV]
  | .int i, hv, _ => by
    rw [Held] at hv
    rw [canon]
    by_cases h : 0 ≤ i
    · rw [if_pos h]
      simp only [eqV, beq_iff_eq]
      rw [toSigned_small (by omega)]
      omega
    · rw [if_neg h]; simp [eqV]
  | .float x, _, h => by
    obtain ⟨h1, h2⟩ := h x (by simp [floats])
    rw [canon, if_pos h1]
    simpa [eqV] using (fo.eq_self x).mpr h2
theorem eqL_canon (fo : FloatOrder F L) (fl : Floats F) : ∀ (vs : List (Json F)), HeldL vs →
    (∀ x ∈ floatsL vs, fl.finite x = true ∧ fo.place x ≠ none) → eqL fo (canonL fl vs) vs = true
  | [], _, _ => by simp [canonL, eqL]
  | v :: vs, hv, h => by
    rw [HeldL] at hv; simp only [floatsL, List.mem_append] at h
    simp [canonL, eqL, eqV_canon fo fl v hv.1 fun x hx => h x (.inl hx),
      eqL_canon fo fl vs hv.2 fun x hx => h x (.inr hx)]
theorem eqM_canon (fo : FloatOrder F L) (fl : Floats F) : ∀ (ms : List (Bytes × Json F)), HeldM ms →
    (∀ x ∈ floatsM ms, fl.finite x = true ∧ fo.place x ≠ none) → eqM fo (canonM fl ms) ms = true
  | [], _, _ => by simp [canonM, eqM]
  | (k, v) :: ms, hv, h => by
    rw [HeldM] at hv; simp only [floatsM, List.mem_append] at h
    simp [canonM, eqM, eqV_canon fo fl v hv.2.1 fun x hx => h x (.inl hx),
      eqM_canon fo fl ms hv.2.2 fun x hx => h x (.inr hx)]
end

mutual
theorem eqV_canon_only (fo : FloatOrder F L) (fl : Floats F) : ∀ (v : Json F),
    eqV fo (canon fl v) v = true → ∀ x ∈ floats v, fl.finite x = true ∧ fo.place x ≠ none
  | .arr xs, h => by
    rw [floats]; simp only [canon, eqV] at h; exact eqL_canon_only fo fl xs h
  | .obj ms, h => by
    rw [floats]; simp only [canon, eqV] at h; exact eqM_canon_only fo fl ms h
  | .null, _ | .bool _, _ | .str _, _ | .uint _, _ | .int _, _ => by simp [floats]
  | .float x, h => by
    rw [canon] at h
    by_cases hf : fl.finite x = true
    · rw [if_pos hf] at h
      simp only [eqV] at h
      simpa [floats, hf] using (fo.eq_self x).mp h
    · rw [if_neg hf] at h; simp [eqV] at h
theorem eqL_canon_only (fo : FloatOrder F L) (fl : Floats F) : ∀ (vs : List (Json F)),
    eqL fo (canonL fl vs) vs = true → ∀ x ∈ floatsL vs, fl.finite x = true ∧ fo.place x ≠ none
  | [], _ => by simp [floatsL]
  | v :: vs, h => by
    simp only [canonL, eqL, Bool.and_eq_true] at h
    intro x hx
    rw [floatsL, List.mem_append] at hx
    exact hx.elim (eqV_canon_only fo fl v h.1 x) (eqL_canon_only fo fl vs h.2 x)
theorem eqM_canon_only (fo : FloatOrder F L) (fl : Floats F) : ∀ (ms : List (Bytes × Json F)),
    eqM fo (canonM fl ms) ms = true → ∀ x ∈ floatsM ms, fl.finite x = true ∧ fo.place x ≠ none
  | [], _ => by simp [floatsM]
  | (k, v) :: ms, h => by
    simp only [canonM, eqM, Bool.and_eq_true] at h
    intro x hx
    rw [floatsM, List.mem_append] at hx
    exact hx.elim (eqV_canon_only fo fl v h.1.2 x) (eqM_canon_only fo fl ms h.2 x)
end

/-- for the examples: numbers of two significant digits, and one NaN -/
def twoDigits : FloatOrder (Option Int) Int :=
  ⟨id, id, fun i => some (if -100 < i ∧ i < 100 then i else i / 10 * 10)⟩

/-- for the examples: `{"a": [1, 2.0, "x"]}` -/
def exA : Json (Option Int) :=
  .obj [([0x61], .arr [.uint 1, .float (some 2), .str [0x78]])]

/-- for the examples: `{"a": [1, 2, "x", null]}`, the integers signed -/
def exB : Json (Option Int) :=
  .obj [([0x61], .arr [.int 1, .int 2, .str [0x78], .null])]

theorem exA_sane : Sane twoDigits true exA := by
  simp [exA, Sane, SaneL, SaneM, twoDigits]

theorem exB_sane : Sane twoDigits true exB := by
  simp [exB, Sane, SaneL, SaneM, twoDigits]

theorem twoDigits_num : ∀ i j : Int, i < j → twoDigits.num i < twoDigits.num j := fun _ _ h => h

theorem twoDigits_int : ∀ i, twoDigits.place (twoDigits.ofInt i) ≠ none := by simp [twoDigits]

/-- **C116** For all values, NaNs included: `==` is symmetric; at most one of `a < b`, `a == b`, `b < a` holds; `!=`,
`>` and the others say what their names say in terms of `==` and `<`. -/
theorem C116_exclusive (fo : FloatOrder F L) (a b : Json F) :
    eqV fo a b = eqV fo b a ∧ ¬ (ltV fo a b = true ∧ ltV fo b a = true) ∧
    ¬ (ltV fo a b = true ∧ eqV fo a b = true) ∧ ltV fo a a = false ∧
    (neV fo a b = true ↔ eqV fo a b = false) ∧ gtV fo a b = ltV fo b a ∧
    (leV fo a b = true ↔ ¬ gtV fo a b = true) ∧ geV fo a b = leV fo b a := by
  refine ⟨eqV_symm fo a b, ?_, ?_, ?_, ?_, ?_, ?_, rfl⟩
  · rintro ⟨h, h'⟩
    rw [ltV_asymm fo a b h] at h'
    cases h'
  · rintro ⟨h, h'⟩
    rw [eqV_lt fo a b h'] at h
    cases h
  · rw [Bool.eq_false_iff]
    intro h
    rw [ltV_asymm fo a a h] at h
    cases h
  · simp [neV]
  · simp [gtV, leV]
  · simp [gtV, leV]

/-- a NaN and a number -/
example : ltV twoDigits (.float none) (.int 3) = false ∧ ltV twoDigits (.int 3) (.float none) = false ∧
    eqV twoDigits (.float none) (.int 3) = false := by
  simp [ltV, eqV, FloatOrder.lt, FloatOrder.eq, twoDigits]

/-- **C116** (what holds) Without NaNs exactly one of `a < b`, `a == b`, `b < a` holds (that no two hold is
`C116_exclusive`), and `a <= b` is `a < b` or `a == b`. -/
theorem C116_trichotomy_partial (fo : FloatOrder F L) (hi : ∀ i, fo.place (fo.ofInt i) ≠ none)
    (a b : Json F) (ha : ∀ x ∈ floats a, fo.place x ≠ none) (hb : ∀ x ∈ floats b, fo.place x ≠ none) :
    (ltV fo a b = true ∨ eqV fo a b = true ∨ ltV fo b a = true) ∧
    (leV fo a b = true ↔ ltV fo a b = true ∨ eqV fo a b = true) := by
  have h := ltV_total fo hi a b ha hb
  refine ⟨h, ?_⟩
  simp only [leV, Bool.not_eq_true']
  constructor
  · intro h'
    rw [h'] at h
    simpa using h
  · rintro (h' | h')
    · exact ltV_asymm fo a b h'
    · rw [eqV_symm] at h'
      exact eqV_lt fo b a h'

example : leV twoDigits exA exB = true :=
  ((C116_trichotomy_partial twoDigits twoDigits_int exA exB (sane_floats exA_sane)
    (sane_floats exB_sane)).2).mpr (.inl (by
      simp [exA, exB, ltV, ltM, ltL, bytesLt, FloatOrder.lt, twoDigits, toSigned]))

/-- **C116** A value equals itself exactly if there is no NaN in it. -/
theorem C116_self_iff (fo : FloatOrder F L) (a : Json F) :
    eqV fo a a = true ↔ ∀ x ∈ floats a, fo.place x ≠ none := eqV_self fo a

example : eqV twoDigits exA exA = true ∧
    eqV twoDigits (.arr [.null, .float none]) (.arr [.null, .float none]) = false := by
  refine ⟨(C116_self_iff _ _).mpr (sane_floats exA_sane), ?_⟩
  rw [Bool.eq_false_iff, Ne, C116_self_iff]
  simp [floats, floatsL, twoDigits]

/-- **C116** (what does not hold) With a NaN, `a <= b` and `b <= a` hold although the values are not equal and neither
is less. -/
theorem C116_nan_fails (fo : FloatOrder F L) (x : F) (hx : fo.place x = none) (b : Json F)
    (hb : b = .float x ∨ ∃ i, b = .int i) :
    leV fo (.float x) b = true ∧ leV fo b (.float x) = true ∧ eqV fo (.float x) b = false := by
  rcases hb with rfl | ⟨i, rfl⟩ <;> simp [leV, ltV, eqV, FloatOrder.lt, FloatOrder.eq, hx]

example : leV twoDigits (.float none) (.int 3) = true :=
  (C116_nan_fails twoDigits none rfl (.int 3) (.inr ⟨3, rfl⟩)).1

/-- **C116** (what holds) Values are equal exactly if they stand for the same: numbers by their value, however they are
stored, everything else literally – provided the integers have at most 63 bits and a sign, and are
floating-point numbers if there are any of these, and there is no NaN. -/
theorem C116_equal_partial (fo : FloatOrder F L) (hn : ∀ i j, i < j → fo.num i < fo.num j) (fp : Bool)
    (a b : Json F) (ha : Sane fo fp a) (hb : Sane fo fp b) :
    eqV fo a b = true ↔ mean fo a = mean fo b := eqV_mean fo fp hn a b ha hb

example : eqV twoDigits (.arr [.uint 2, .int 2]) (.arr [.float (some 2), .uint 2]) = true :=
  (C116_equal_partial twoDigits twoDigits_num true _ _ (by simp [Sane, SaneL, twoDigits])
    (by simp [Sane, SaneL, twoDigits])).mpr (by simp [mean, meanL, twoDigits])

/-- **C116** (what holds) On the same conditions `a < b` is the documented order of what the values stand for. -/
theorem C116_less_partial (fo : FloatOrder F L) (hn : ∀ i j, i < j → fo.num i < fo.num j)
    (hi : ∀ i, fo.place (fo.ofInt i) ≠ none) (fp : Bool) (a b : Json F) (ha : Sane fo fp a)
    (hb : Sane fo fp b) : ltV fo a b = true ↔ Less (mean fo a) (mean fo b) :=
  ltV_mean fo fp hn hi a b ha hb

/-- the second array is longer -/
example : ltV twoDigits exA exB = true := by
  rw [C116_less_partial twoDigits twoDigits_num twoDigits_int true _ _ exA_sane exB_sane]
  simp only [mean, meanM, meanL, exA, exB, twoDigits, id]
  exact .obj [] [] [] [0x61] (.arrShort [.num 1, .num 2, .str [0x78]] .null [])

/-- **C116** (what holds) On the same conditions `<` is a strict order in which equal values can be exchanged: what
`std::map`, `std::sort` and the like ask for. -/
theorem C116_transitive_partial (fo : FloatOrder F L) (hn : ∀ i j, i < j → fo.num i < fo.num j)
    (hi : ∀ i, fo.place (fo.ofInt i) ≠ none) (fp : Bool) (a b c : Json F) (ha : Sane fo fp a)
    (hb : Sane fo fp b) (hc : Sane fo fp c) :
    (ltV fo a b = true → ltV fo b c = true → ltV fo a c = true) ∧
    (eqV fo a b = true → eqV fo b c = true → eqV fo a c = true) ∧
    (eqV fo a b = true → ltV fo b c = ltV fo a c ∧ ltV fo c b = ltV fo c a) := by
  rw [ltV_mean fo fp hn hi a b ha hb, ltV_mean fo fp hn hi b c hb hc, ltV_mean fo fp hn hi a c ha hc,
    eqV_mean fo fp hn a b ha hb, eqV_mean fo fp hn b c hb hc, eqV_mean fo fp hn a c ha hc]
  refine ⟨less_trans, Eq.trans, fun h => ⟨?_, ?_⟩⟩
  · rw [Bool.eq_iff_iff, ltV_mean fo fp hn hi b c hb hc, ltV_mean fo fp hn hi a c ha hc, h]
  · rw [Bool.eq_iff_iff, ltV_mean fo fp hn hi c b hc hb, ltV_mean fo fp hn hi c a hc ha, h]

example : ltV twoDigits (.arr [exA]) (.str []) = true :=
  (C116_transitive_partial twoDigits twoDigits_num twoDigits_int true (.arr [exA]) (.arr [exB]) (.str [])
    (by simpa [Sane, SaneL] using exA_sane) (by simpa [Sane, SaneL] using exB_sane) (by simp [Sane])).1
    (by
      rw [C116_less_partial twoDigits twoDigits_num twoDigits_int true _ _
        (by simpa [Sane, SaneL] using exA_sane) (by simpa [Sane, SaneL] using exB_sane)]
      simp only [mean, meanM, meanL, exA, exB, twoDigits, id]
      exact .arr [] [] [] (.obj [] [] [] [0x61] (.arrShort [.num 1, .num 2, .str [0x78]] .null [])))
    (by simp [ltV, kindOrder])

/-- **C116** (what does not hold) Integers from 2^63 on: 18446744073709551615 equals -1, and
0 < 5 < 18446744073709551615 < 0 if the 0 is the signed one, as reading "-0" gives it: `<` is no order. -/
theorem C116_wide_integers_fails (fo : FloatOrder F L) :
    eqV fo (.uint (2 ^ 64 - 1)) (.int (-1)) = true ∧
    ltV fo (.int 0) (.uint 5) = true ∧ ltV fo (.uint 5) (.uint (2 ^ 64 - 1)) = true ∧
    ltV fo (.uint (2 ^ 64 - 1)) (.int 0) = true := by
  simp [ltV, eqV, toSigned]

/-- these values are read from texts -/
example (fl : Floats F) : parseAll fl [0x2D, 0x31] = .ok (.int (-1)) ∧ parseAll fl [0x2D, 0x30] = .ok (.int 0) ∧
    parseAll fl [0x31, 0x38, 0x34, 0x34, 0x36, 0x37, 0x34, 0x34, 0x30, 0x37, 0x33, 0x37, 0x30, 0x39, 0x35,
      0x35, 0x31, 0x36, 0x31, 0x35] = .ok (.uint (2 ^ 64 - 1)) := by
  refine ⟨?_, ?_, ?_⟩ <;> rfl

/-- **C116** (what does not hold) With integers that are no floating-point numbers `==` is not transitive: two different
integers that are rounded to the same number `x` both equal it. -/
theorem C116_rounded_integers_fails (fo : FloatOrder F L) (i j : Int) (hij : i ≠ j) (x : F)
    (hx : fo.place x ≠ none) (h1 : fo.place (fo.ofInt i) = fo.place x)
    (h2 : fo.place (fo.ofInt j) = fo.place x) :
    eqV fo (.int i) (.float x) = true ∧ eqV fo (.float x) (.int j) = true ∧
    eqV fo (.int i) (.int j) = false := by
  obtain ⟨a, ha⟩ := Option.ne_none_iff_exists'.mp hx
  rw [ha] at h1 h2
  refine ⟨?_, ?_, ?_⟩
  · simp only [eqV]; exact (eq_num fo h1 ha).mpr rfl
  · simp only [eqV]; exact (eq_num fo ha h2).mpr rfl
  · simp [eqV, hij]

example : eqV twoDigits (.int 121) (.float (some 120)) = true ∧
    eqV twoDigits (.float (some 120)) (.int 122) = true ∧ eqV twoDigits (.int 121) (.int 122) = false :=
  C116_rounded_integers_fails twoDigits 121 122 (by decide) (some 120) (by simp [twoDigits])
    (by simp [twoDigits]) (by simp [twoDigits])

/-- **C116** What is read back after a value has been written equals the value exactly if all its floating-point
numbers are finite. -/
theorem C116_read_back_iff (fo : FloatOrder F L) (fl : Floats F) (hfl : Exact fl)
    (hf : ∀ x, fl.finite x = true → fo.place x ≠ none) (indent : Int) (hi : indent ≤ 1024) (ic : Nat)
    (hic : Ws [ic]) (ascii : Bool) (h : Handler) (v : Json F) (hv : Held v) (ho : Ordered v)
    (hu : ∀ s ∈ strings v, Utf8 s) :
    ∃ t w, dump fl indent ic ascii h v = .ok t ∧ parseAll fl t = .ok w ∧
      (eqV fo w v = true ↔ ∀ x ∈ floats v, fl.finite x = true) := by
  obtain ⟨t, h1, _, h2⟩ := C113_read_back fl hfl indent hi ic hic ascii h v hv ho hu
  refine ⟨t, canon fl v, h1, h2, fun h x hx => (eqV_canon_only fo fl v h x hx).1, fun h => ?_⟩
  exact eqV_canon fo fl v hv fun x hx => ⟨h x hx, hf x (h x hx)⟩

/-- `exValue` has a floating-point number, an integer and strings -/
example : ∃ t w, dump exFloats 2 0x20 false .strict exValue = .ok t ∧ parseAll exFloats t = .ok w ∧
    eqV (⟨fun n => some (n : Int), id, Int.toNat⟩ : FloatOrder Nat Int) w exValue = true := by
  obtain ⟨t, w, h1, h2, h3⟩ := C116_read_back_iff (⟨fun n => some (n : Int), id, Int.toNat⟩ : FloatOrder Nat Int)
    exFloats exFloats_exact (by simp) 2 (by decide) 0x20 (by simp [Ws]) false .strict exValue exValue_held
    exValue_ordered exValue_utf8
  exact ⟨t, w, h1, h2, h3.mpr fun _ _ => rfl⟩

end Verif.Json
