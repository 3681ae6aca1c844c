import Verif.Json.GrisuValue
import Verif.Json.PropsWriter

/-!
# C117: the text of floating-point numbers
-/

namespace Verif.Json

/-- the bits of a `double` -/
abbrev Double := {n : Nat // n < 2 ^ 64}

/-- a function that reads numbers (`std::strtod`) gives the `double` that is nearer than all others to the number
in the text, wherever there is one; between two that are equally near it may take either -/
def Spec.Nearest (strtod : Bytes → Double) : Prop :=
  ∀ sg i f e b, Spec.Sign sg → Spec.IntPart i → Spec.Frac f → Spec.Exp e → b < Spec.infinity →
    Spec.Closest (Spec.numVal i f e) b →
    (strtod (sg ++ i ++ f ++ e)).val = b + if sg = [] then 0 else 2 ^ 63

/-- the numbers of type `double` in JSON: read with `strtod`, written with `to_chars` (`dump_float`,
json.hpp:14450-14456) -/
def doubles (strtod : Bytes → Double) : Floats Double where
  toFloat := strtod
  finite x := Grisu.isFinite x
  shortest x := match Grisu.toChars x with
    | .ok t => t
    | _ => []

namespace Grisu
open Spec

theorem positive_eq {cap : Nat} (hcap : 23 ≤ cap) {bits : Nat} (h : bits < infinity) :
    ∃ i f e, ∃ (D : Nat) (x : Int), Text cap (D * 10 ^ x) (positive cap bits) i f e ∧ Closest (numVal i f e) bits ∧
      D < 10 ^ 17 ∧ (0 < bits → D % 10 ≠ 0 ∧
      (∀ Z : Nat, upper bits / 2 ^ 60 + lower bits ≤ Z * 10 ^ (x + 1) →
        Z * 10 ^ (x + 1) ≤ upper bits - upper bits / 2 ^ 60 → False) ∧
      ∀ Z : Nat, upper bits / 2 ^ 60 + lower bits ≤ Z * 10 ^ x →
        Z * 10 ^ x ≤ upper bits - upper bits / 2 ^ 60 →
        |D * 10 ^ x - double bits| ≤ |Z * 10 ^ x - double bits| + upper bits / 2 ^ 60) := by
  by_cases h0 : bits = 0
  · subst h0
    refine ⟨[0x30], [0x2E, 0x30], [], 0, 0, ⟨?_, .inl rfl, .inr ⟨[0x30], ⟨by simp, by simp [Digit]⟩, rfl⟩, .inl rfl,
      .inl (by simp), ?_, by simp⟩, ?_, by norm_num, by simp⟩
    · simp [positive, fits]; omega
    · simp [numVal, decimal]
    · have : numVal [0x30] [0x2E, 0x30] [] = 0 := by simp [numVal, decimal]
      rw [this]; exact closest_zero
  · obtain ⟨b, buf, x, e1, e2, e3, e4, e5, e6, e7, e8, e9, e10, e11, e12⟩ := grisu2_eq (cap := cap) (by omega) (show 0 < bits by omega) h
    obtain ⟨i, f, e, ht⟩ := formatBuffer_eq hcap e3 e4 e5 (x := x) (by omega) (by omega)
    refine ⟨i, f, e, decimal buf, x, ⟨?_, ht.int, ht.frac, ht.exp, ht.float, ht.val, ht.len⟩, ?_, ?_, fun _ => ⟨?_, e11, e12⟩⟩
    · rw [positive, if_neg h0, e1]
      simp only [Outcome.bind_ok, e2, e5, decide_true, Outcome.assert_true, show 17 ≤ cap by omega,
        show 2 + (4 - 1) + 17 ≤ cap by omega, show 17 + 6 ≤ cap by omega]
      exact ht.result
    · rw [ht.val]
      unfold lower at e9
      unfold upper at e10
      exact closest_of (by omega) (by linarith) (by linarith)
    · exact lt_of_lt_of_le (decimal_lt e3.digits) (Nat.pow_le_pow_right (by norm_num) e5)
    · obtain ⟨pre, d, rfl⟩ : ∃ pre d, buf = pre ++ [d] := by
        rcases List.eq_nil_or_concat buf with h | ⟨pre, d, h⟩
        · exact absurd h e4
        · exact ⟨pre, d, by simpa using h⟩
      have := e3.digits d (by simp)
      unfold Digit at this
      rw [decimal_snoc]
      simp at e6
      omega

theorem isFinite_iff (bits : Nat) : isFinite bits = true ↔ bits % 2 ^ 63 < infinity := by
  unfold isFinite infinity
  rw [decide_eq_true_eq, Nat.shiftRight_eq_div_pow]
  omega

/-! ## There are functions that read so -/

theorem closest_unique {q : ℚ} {b c : Nat} (hb : Closest q b) (hc : Closest q c) (h1 : b ≤ infinity)
    (h2 : c ≤ infinity) : b = c := by
  by_contra h
  exact lt_irrefl _ (lt_trans (hb c h2 (Ne.symm h)) (hc b h1 h))

/-- a digit -/
def isDigit (c : Nat) : Bool := 0x30 ≤ c ∧ c ≤ 0x39

/-- the parts of a text, by cutting it at the first characters that are not digits -/
def parts (t : Bytes) : Bytes × Bytes × Bytes × Bytes :=
  let sg := if t.head? = some 0x2D then [0x2D] else []
  let u := t.drop sg.length
  let i := u.takeWhile isDigit
  let r := u.drop i.length
  let f := if r.head? = some 0x2E then 0x2E :: r.tail.takeWhile isDigit else []
  (sg, i, f, r.drop f.length)

theorem takeWhile_digits {ds r : Bytes} (h : ∀ c ∈ ds, Digit c) (hr : ∀ c, r.head? = some c → ¬ Digit c) :
    (ds ++ r).takeWhile isDigit = ds := by
  induction ds with
  | nil =>
    cases r with
    | nil => rfl
    | cons c r =>
      rw [List.nil_append, List.takeWhile_cons_of_neg]
      have := hr c rfl
      unfold Digit at this
      simpa [isDigit] using this
  | cons d ds ih =>
    have := h d (by simp)
    unfold Digit at this
    rw [List.cons_append, List.takeWhile_cons_of_pos (by simpa [isDigit] using this),
      ih fun c hc => h c (by simp [hc])]

theorem parts_eq {sg i f e : Bytes} (hsg : Sign sg) (hi : IntPart i) (hf : Frac f) (he : Exp e) :
    parts (sg ++ i ++ f ++ e) = (sg, i, f, e) := by
  have hid : Digits i := by
    rcases hi with rfl | h
    · exact ⟨by simp, by simp [Digit]⟩
    · exact h.1
  have hehead : ∀ c, e.head? = some c → c = 0x65 ∨ c = 0x45 := by
    intro c hc
    rcases he with rfl | ⟨m, s, ds, hm, -, -, rfl⟩
    · simp at hc
    · simp at hc; omega
  have hrhead : ∀ c, (f ++ e).head? = some c → c = 0x2E ∨ c = 0x65 ∨ c = 0x45 := by
    intro c hc
    rcases hf with rfl | ⟨ds, -, rfl⟩
    · exact .inr (hehead c hc)
    · simp at hc; omega
  obtain ⟨i0, i', rfl⟩ : ∃ i0 i', i = i0 :: i' := by
    cases i with
    | nil => exact absurd rfl hid.1
    | cons a l => exact ⟨a, l, rfl⟩
  have hi0 := hid.2 i0 (by simp)
  unfold Digit at hi0
  have e1 : (if (sg ++ (i0 :: i') ++ f ++ e).head? = some 0x2D then [0x2D] else []) = sg := by
    rcases hsg with rfl | rfl
    · simp; omega
    · simp
  have e2 : (sg ++ (i0 :: i') ++ f ++ e).drop sg.length = (i0 :: i') ++ (f ++ e) := by
    rw [List.append_assoc, List.append_assoc, List.drop_left]
  have e3 : ((i0 :: i') ++ (f ++ e)).takeWhile isDigit = i0 :: i' :=
    takeWhile_digits hid.2 fun c hc => by
      have := hrhead c hc
      unfold Digit; omega
  have e4 : (if (f ++ e).head? = some 0x2E then 0x2E :: (f ++ e).tail.takeWhile isDigit else []) = f := by
    rcases hf with rfl | ⟨ds, hds, rfl⟩
    · rw [if_neg]
      intro h
      have := hehead _ h
      omega
    · rw [if_pos (by simp)]
      simp only [List.cons_append, List.tail_cons]
      rw [takeWhile_digits hds.2]
      intro c hc
      have := hehead c hc
      unfold Digit; omega
  simp only [parts, e1, e2, e3, List.drop_left, e4]

/-- what is to be read from the parts of a text -/
def Reads (p : Bytes × Bytes × Bytes × Bytes) (d : Double) : Prop :=
  ∃ b, b < infinity ∧ Closest (numVal p.2.1 p.2.2.1 p.2.2.2) b ∧ d.val = b + if p.1 = [] then 0 else 2 ^ 63

theorem reads_exists {sg i f e : Bytes} {b : Nat} (hb : b < infinity) (hc : Closest (numVal i f e) b) :
    ∃ d, Reads (sg, i, f, e) d := by
  have : infinity < 2 ^ 63 := by unfold infinity; norm_num
  by_cases h : sg = []
  · exact ⟨⟨b, by omega⟩, b, hb, hc, by simp only [if_pos h, Nat.add_zero]⟩
  · exact ⟨⟨b + 2 ^ 63, by omega⟩, b, hb, hc, by simp only [if_neg h]⟩

theorem nearest_exists : ∃ strtod, Nearest strtod := by
  have : ∀ t, ∃ d, (∃ d', Reads (parts t) d') → Reads (parts t) d := by
    intro t
    by_cases h : ∃ d', Reads (parts t) d'
    · obtain ⟨d, hd⟩ := h
      exact ⟨d, fun _ => hd⟩
    · exact ⟨⟨0, by norm_num⟩, fun h' => absurd h' h⟩
  choose strtod hs using this
  refine ⟨strtod, fun sg i f e b hsg hi hf he hb hc => ?_⟩
  have h := hs (sg ++ i ++ f ++ e)
  rw [parts_eq hsg hi hf he] at h
  obtain ⟨b', h1, h2, h3⟩ := h (reads_exists hb hc)
  rw [closest_unique hc h2 hb.le h1.le]
  exact h3

end Grisu
open Spec

/-- **C117** (what holds) A finite `double` is written as a JSON number with a fraction or an exponent, of at most 24
characters, with a sign if and only if its sign bit is set; the number in the text is nearer to it than to
every other `double`.  No assertion fails, no shift is undefined and nothing is written outside the buffer. -/
theorem C117_nearest (x : Double) (hx : x.val % 2 ^ 63 < infinity) :
    ∃ sg i f e, Grisu.toChars x = .ok (sg ++ i ++ f ++ e) ∧ Sign sg ∧ IntPart i ∧ Frac f ∧ Exp e ∧
      (f ≠ [] ∨ e ≠ []) ∧ (sg ++ i ++ f ++ e).length ≤ 24 ∧ (sg ≠ [] ↔ 2 ^ 63 ≤ x.val) ∧
      Closest (numVal i f e) (x.val % 2 ^ 63) := by
  obtain ⟨bits, hb⟩ := x
  simp only at hx ⊢
  have hfin := (Grisu.isFinite_iff bits).mpr hx
  have hsr : bits >>> 63 ≠ 0 ↔ 2 ^ 63 ≤ bits := by rw [Nat.shiftRight_eq_div_pow]; omega
  rw [Grisu.toChars, hfin]
  simp only [Outcome.assert_true, Outcome.bind_ok]
  by_cases hs : 2 ^ 63 ≤ bits
  · rw [if_pos (hsr.mpr hs)]
    have e : bits - 2 ^ 63 = bits % 2 ^ 63 := by omega
    rw [e]
    obtain ⟨i, f, e, _, _, ht, hc, -⟩ := Grisu.positive_eq (cap := 63) (by omega) hx
    refine ⟨[0x2D], i, f, e, ?_, .inr rfl, ht.int, ht.frac, ht.exp, ht.float, ?_, by simpa using hs, hc⟩
    · rw [ht.result]; simp
    · have := ht.len; simp at this ⊢; omega
  · rw [if_neg (by rw [hsr]; exact hs)]
    have e : bits % 2 ^ 63 = bits := by omega
    rw [e] at hx ⊢
    obtain ⟨i, f, e, _, _, ht, hc, -⟩ := Grisu.positive_eq (cap := 64) (by omega) hx
    refine ⟨[], i, f, e, ?_, .inl rfl, ht.int, ht.frac, ht.exp, ht.float, ?_, by simpa using hs, hc⟩
    · rw [ht.result]; simp
    · have := ht.len; simp at this ⊢; omega

example : Grisu.toChars 0x3FF8000000000000 = .ok [0x31, 0x2E, 0x35] := by decide +kernel  -- 1.5
example : Grisu.toChars 0xBFB999999999999A = .ok [0x2D, 0x30, 0x2E, 0x31] := by decide +kernel  -- -0.1

/-- **C117** (what holds) Whatever reads numbers so that the nearest `double` is taken reads the same number back:
the assumption of C113 about floating-point numbers holds for `double`. -/
theorem C117_exact {strtod : Bytes → Double} (h : Nearest strtod) : Exact (doubles strtod) := by
  intro x hx
  have hx' : x.val % 2 ^ 63 < infinity := (Grisu.isFinite_iff x.val).mp hx
  obtain ⟨sg, i, f, e, ht, hsg, hi, hf, he, hfe, -, hneg, hc⟩ := C117_nearest x hx'
  have hshort : (doubles strtod).shortest x = sg ++ i ++ f ++ e := by
    simp only [doubles, ht]
  refine ⟨?_, sg, i, f, e, hsg, hi, hf, he, hfe, hshort⟩
  rw [hshort]
  have := h sg i f e _ hsg hi hf he hx' hc
  apply Subtype.ext
  show (strtod (sg ++ i ++ f ++ e)).val = x.val
  rw [this]
  have hlt := x.property
  by_cases hs : sg = []
  · rw [if_pos hs]
    have : ¬ 2 ^ 63 ≤ x.val := fun h => hneg.mpr h hs
    omega
  · rw [if_neg hs]
    have := hneg.mp hs
    omega

-- such functions exist
example : ∃ strtod, Exact (doubles strtod) := by
  obtain ⟨strtod, h⟩ := Grisu.nearest_exists
  exact ⟨strtod, C117_exact h⟩

/-- **C117** (what holds) A value with numbers of type `double` whose strings are UTF-8 is written without an
exception and read back as it is, with every finite number in it the same to the last bit. -/
theorem C117_read_back {strtod : Bytes → Double} (h : Nearest strtod) (indent : Int) (hi : indent ≤ 1024) (ic : Nat)
    (hic : Ws [ic]) (ascii : Bool) (hd : Handler) (v : Json Double) (hv : Held v) (ho : Ordered v)
    (hu : ∀ s ∈ strings v, Utf8 s) :
    ∃ t, dump (doubles strtod) indent ic ascii hd v = .ok t ∧
      parseAll (doubles strtod) t = .ok (canon (doubles strtod) v) := by
  obtain ⟨t, h1, -, h2⟩ := C113_read_back (doubles strtod) (C117_exact h) indent hi ic hic ascii hd v hv ho hu
  exact ⟨t, h1, h2⟩

-- a value with a number of which the digits must be found
example : ∃ strtod, Nearest strtod ∧ ∃ t,
    dump (doubles strtod) 2 0x20 false .strict (.arr [.float ⟨0x3FB999999999999A, by norm_num⟩]) = .ok t ∧
      parseAll (doubles strtod) t = .ok (.arr [.float ⟨0x3FB999999999999A, by norm_num⟩]) := by
  obtain ⟨strtod, h⟩ := Grisu.nearest_exists
  obtain ⟨t, h1, h2⟩ := C117_read_back h 2 (by norm_num) 0x20 (by simp [Ws]) false .strict
    (.arr [.float ⟨0x3FB999999999999A, by norm_num⟩]) (by simp [Held, HeldL]) (by simp [Ordered, OrderedL])
    (by simp [strings, stringsL])
  refine ⟨strtod, h, t, h1, h2.trans ?_⟩
  have : Grisu.isFinite 0x3FB999999999999A = true := by decide +kernel
  simp [canon, canonL, doubles, this]

/-- a text is the shortest for a number: the digits have no zero at the end, and no number with fewer digits – a
multiple of ten of the last place – is nearer to it than to every other `double` -/
def Spec.Shortest (D : Nat) (x : Int) (b : Nat) : Prop :=
  D % 10 ≠ 0 ∧ ∀ Z : Nat, ¬ Closest (Z * 10 ^ (x + 1)) b

theorem Grisu.toChars_positive {b : Nat} (hb : b < infinity) : Grisu.toChars b = Grisu.positive 64 b := by
  have hb63 : b < 2 ^ 63 := by unfold infinity at hb; omega
  rw [Grisu.toChars, (Grisu.isFinite_iff b).mpr (by rw [Nat.mod_eq_of_lt hb63]; exact hb),
    if_neg (by rw [Nat.shiftRight_eq_div_pow]; omega)]
  simp only [Outcome.assert_true, Outcome.bind_ok]

/-- **C117** (what holds) The text has at most 17 significant digits and no zero at their end, and there is hardly a
shorter or a better one: a number with fewer digits lies outside the interval between the middles of the gaps to the
neighbours, or within it closer to an end than 2^-60 of the number, and except for those close to an end no number
with as many digits is nearer by more than that. -/
theorem C117_short_partial (b : Nat) (h0 : 0 < b) (hb : b < infinity) :
    ∃ i f e, ∃ (D : Nat) (x : Int), Grisu.toChars b = .ok (i ++ f ++ e) ∧ numVal i f e = D * 10 ^ x ∧ D < 10 ^ 17 ∧
      D % 10 ≠ 0 ∧
      let up := (double b + double (b + 1)) / 2
      let low := (double (b - 1) + double b) / 2
      (∀ Z : Nat, ¬ (low + up / 2 ^ 60 ≤ Z * 10 ^ (x + 1) ∧ Z * 10 ^ (x + 1) ≤ up - up / 2 ^ 60)) ∧
      ∀ Z : Nat, low + up / 2 ^ 60 ≤ Z * 10 ^ x → Z * 10 ^ x ≤ up - up / 2 ^ 60 →
        |D * 10 ^ x - double b| ≤ |Z * 10 ^ x - double b| + up / 2 ^ 60 := by
  obtain ⟨i, f, e, D, x, ht, -, hD, hs⟩ := Grisu.positive_eq (cap := 64) (by omega) hb
  obtain ⟨h1, h2, h3⟩ := hs h0
  refine ⟨i, f, e, D, x, (Grisu.toChars_positive hb).trans ht.result, ht.val, hD, h1, fun Z hZ => h2 Z ?_ hZ.2,
    fun Z hZ1 hZ2 => h3 Z ?_ hZ2⟩
  · rw [add_comm]; exact hZ.1
  · rw [add_comm]; exact hZ1

-- 5e-324 in place of 4.9406564584124654e-324
example : Grisu.toChars 1 = .ok [0x35, 0x65, 0x2D, 0x33, 0x32, 0x34] := by decide +kernel

set_option exponentiation.threshold 400 in
/-- **C117** (what does not hold) The text is not always the shortest that is read as the number: 1e126 is nearer to
this `double` than to every other one, and is written as 9.999999999999999e+125. -/
theorem C117_shortest_fails :
    Grisu.toChars 0x5A17A2ECC414A03F =
      .ok ([0x39] ++ 0x2E :: List.replicate 15 0x39 ++ [0x65, 0x2B, 0x31, 0x32, 0x35]) ∧
    numVal [0x39] (0x2E :: List.replicate 15 0x39) [0x65, 0x2B, 0x31, 0x32, 0x35] = 9999999999999999 * 10 ^ (110 : Int) ∧
    Closest (1 * 10 ^ (126 : Int)) 0x5A17A2ECC414A03F ∧ ¬ Shortest 9999999999999999 110 0x5A17A2ECC414A03F := by
  have hc : Closest (1 * 10 ^ (126 : Int)) 0x5A17A2ECC414A03F := by
    refine Grisu.closest_of (by norm_num) ?_ ?_ <;> norm_num [double]
  refine ⟨by decide +kernel, by norm_num [numVal, expVal, decimal, List.replicate], hc, fun h => h.2 (10 ^ 15) ?_⟩
  convert hc using 1
  norm_num

set_option exponentiation.threshold 800 in
/-- **C117** (what does not hold) The text is not always the nearest of those with as many digits:
6.726687998321543e-198 is nearer to this `double` than 6.726687998321542e-198, which is written. -/
theorem C117_nearest_text_fails :
    Grisu.toChars 0x170017284E67CADB =
      .ok ([0x36] ++ [0x2E, 0x37, 0x32, 0x36, 0x36, 0x38, 0x37, 0x39, 0x39, 0x38, 0x33, 0x32, 0x31, 0x35, 0x34, 0x32] ++
        [0x65, 0x2D, 0x31, 0x39, 0x38]) ∧
    |(6726687998321543 : ℚ) * 10 ^ (-213 : Int) - double 0x170017284E67CADB| <
      |(6726687998321542 : ℚ) * 10 ^ (-213 : Int) - double 0x170017284E67CADB| := by
  refine ⟨by decide +kernel, ?_⟩
  rw [abs_of_nonneg (by norm_num [double]), abs_of_neg (by norm_num [double])]
  norm_num [double]

end Verif.Json
