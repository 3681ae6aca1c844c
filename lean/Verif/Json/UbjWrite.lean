import Verif.Json.UbjRun
import Verif.Json.BsonWrite

/-!
# What the UBJSON writer writes
-/

namespace Verif.Json
open Spec Spec.Ubj

namespace Spec

mutual
/-- the numbers of elements of the arrays in a value, at any depth -/
def arrSizes : Json F → List Nat
  | .arr xs => xs.length :: arrSizesL xs
  | .obj ms => arrSizesM ms
  | .null | .bool _ | .int _ | .uint _ | .float _ | .str _ => []
def arrSizesL : List (Json F) → List Nat
  | [] => []
  | v :: vs => arrSizes v ++ arrSizesL vs
def arrSizesM : List (Bytes × Json F) → List Nat
  | [] => []
  | (_, v) :: ms => arrSizes v ++ arrSizesM ms
end

mutual
/-- the numbers of members of the objects in a value, at any depth -/
def objSizes : Json F → List Nat
  | .arr xs => objSizesL xs
  | .obj ms => ms.length :: objSizesM ms
  | .null | .bool _ | .int _ | .uint _ | .float _ | .str _ => []
def objSizesL : List (Json F) → List Nat
  | [] => []
  | v :: vs => objSizes v ++ objSizesL vs
def objSizesM : List (Bytes × Json F) → List Nat
  | [] => []
  | (_, v) :: ms => objSizes v ++ objSizesM ms
end

mutual
/-- the same value, the integers from 128 to 255 unsigned and all others signed -/
def byteUnsigned : Json F → Json F
  | .uint n => if 128 ≤ n ∧ n ≤ 255 then .uint n else .int n
  | .int i => if 128 ≤ i ∧ i ≤ 255 then .uint i.toNat else .int i
  | .arr xs => .arr (byteUnsignedL xs)
  | .obj ms => .obj (byteUnsignedM ms)
  | .null => .null
  | .bool b => .bool b
  | .float x => .float x
  | .str s => .str s
def byteUnsignedL : List (Json F) → List (Json F)
  | [] => []
  | v :: vs => byteUnsigned v :: byteUnsignedL vs
def byteUnsignedM : List (Bytes × Json F) → List (Bytes × Json F)
  | [] => []
  | (k, v) :: ms => (k, byteUnsigned v) :: byteUnsignedM ms
end

end Spec

theorem byteUnsignedL_length : ∀ vs : List (Json F), (byteUnsignedL vs).length = vs.length
  | [] => by simp [byteUnsignedL]
  | _ :: vs => by simp [byteUnsignedL, byteUnsignedL_length vs]

theorem byteUnsignedM_length : ∀ ms : List (Bytes × Json F), (byteUnsignedM ms).length = ms.length
  | [] => by simp [byteUnsignedM]
  | (_, _) :: ms => by simp [byteUnsignedM, byteUnsignedM_length ms]

/-! ## Numbers -/

/-- the prefix, if it is written -/
def pre? (pre : Bool) (c : Nat) : Bytes := if pre then [c] else []

theorem write_isInt (m : Mach) {w : Nat} {i : Int} (hw : w = 1 ∨ w = 2 ∨ w = 4 ∨ w = 8) (h1 : -2 ^ (8 * w - 1) ≤ i)
    (h2 : i < 2 ^ (8 * w - 1)) : Ubj.IsInt w (writeNumber m false w (i % 2 ^ (8 * w)).toNat) i := by
  have h3 : 0 ≤ i % 2 ^ (8 * w) ∧ i % 2 ^ (8 * w) < 256 ^ w := by
    rcases hw with rfl | rfl | rfl | rfl <;> simp only [Nat.reduceMul] <;> omega
  refine ⟨writeNumber_length m w _, writeNumber_lt m w _, h1, h2, ?_⟩
  have h4 : (i % 2 ^ (8 * w)).toNat < 256 ^ w := by
    rcases hw with rfl | rfl | rfl | rfl <;> simp only [Nat.reduceMul] at h3 ⊢ <;> omega
  rw [writeNumber_big m h4]
  rcases hw with rfl | rfl | rfl | rfl <;> simp only [Nat.reduceMul] at h3 ⊢ <;> omega

theorem write_uint_isInt (m : Mach) {w n : Nat} (hw : w = 1 ∨ w = 2 ∨ w = 4 ∨ w = 8) (h : n < 2 ^ (8 * w - 1)) :
    Ubj.IsInt w (writeNumber m false w n) (n : Int) := by
  refine ⟨writeNumber_length m w _, writeNumber_lt m w _, ?_, ?_, ?_⟩
  · rcases hw with rfl | rfl | rfl | rfl <;> simp only [Nat.reduceMul, Nat.reduceSub] <;> omega
  · rcases hw with rfl | rfl | rfl | rfl <;> simp only [Nat.reduceMul, Nat.reduceSub] at h ⊢ <;> omega
  · rw [writeNumber_big m (by rcases hw with rfl | rfl | rfl | rfl <;> simp only [Nat.reduceMul, Nat.reduceSub] at h <;> omega)]
    rcases hw with rfl | rfl | rfl | rfl <;> simp only [Nat.reduceMul, Nat.reduceSub] at h ⊢ <;> omega

theorem ubjUint_spec {n : Nat} (h : n < 2 ^ 63) : ∃ c b, Num c b n ∧ c = ubjPrefix (.uint n) ∧
    (c = 0x55 ↔ 128 ≤ n ∧ n ≤ 255) ∧ (c = 0x55 → b = [n]) ∧ ∀ m pre, ubjUint m pre n = .ok (pre? pre c ++ b) := by
  simp only [ubjPrefix]
  have hm : ∀ m m' w, writeNumber m false w n = writeNumber m' false w n := fun m m' w => by
    rw [writeNumber_eq, writeNumber_eq]
  let m0 : Mach := ⟨true, 0, 0, 0⟩
  by_cases h1 : n ≤ 127
  · rw [if_pos h1]
    refine ⟨0x69, writeNumber m0 false 1 n, .int8 (write_uint_isInt m0 (.inl rfl) (by omega)), rfl, by omega, by omega, fun m pre => ?_⟩
    rw [ubjUint, if_pos h1, hm m m0, pre?]
  by_cases h2 : n ≤ 255
  · rw [if_neg h1, if_pos h2]
    refine ⟨0x55, [n], .uint8 (by omega), rfl, by omega, fun _ => rfl, fun m pre => ?_⟩
    rw [ubjUint, if_neg h1, if_pos h2, writeNumber_one m (by omega), pre?]
  by_cases h3 : n ≤ 32767
  · rw [if_neg h1, if_neg h2, if_pos h3]
    refine ⟨0x49, writeNumber m0 false 2 n, .int16 (write_uint_isInt m0 (.inr (.inl rfl)) (by omega)), rfl, by omega, by omega,
      fun m pre => ?_⟩
    rw [ubjUint, if_neg h1, if_neg h2, if_pos h3, hm m m0, pre?]
  by_cases h4 : n ≤ 2147483647
  · rw [if_neg h1, if_neg h2, if_neg h3, if_pos h4]
    refine ⟨0x6C, writeNumber m0 false 4 n, .int32 (write_uint_isInt m0 (.inr (.inr (.inl rfl))) (by omega)), rfl, by omega,
      by omega, fun m pre => ?_⟩
    rw [ubjUint, if_neg h1, if_neg h2, if_neg h3, if_pos h4, hm m m0, pre?]
  · rw [if_neg h1, if_neg h2, if_neg h3, if_neg h4]
    refine ⟨0x4C, writeNumber m0 false 8 n, .int64 (write_uint_isInt m0 (.inr (.inr (.inr rfl))) (by omega)), rfl, by omega,
      by omega, fun m pre => ?_⟩
    rw [ubjUint, if_neg h1, if_neg h2, if_neg h3, if_neg h4, if_pos (by omega), hm m m0, pre?]

theorem ubjSint_spec {i : Int} (h : -2 ^ 63 ≤ i) (h' : i < 2 ^ 63) : ∃ c b, Num c b i ∧ c = ubjPrefix (.int i) ∧
    (c = 0x55 ↔ 128 ≤ i ∧ i ≤ 255) ∧ (c = 0x55 → b = [i.toNat]) ∧ ∀ m pre, ubjSint m pre i = .ok (pre? pre c ++ b) := by
  simp only [ubjPrefix]
  have hm : ∀ m m' w n, writeNumber m false w n = writeNumber m' false w n := fun m m' w n => by
    rw [writeNumber_eq, writeNumber_eq]
  let m0 : Mach := ⟨true, 0, 0, 0⟩
  by_cases h1 : -128 ≤ i ∧ i ≤ 127
  · rw [if_pos h1]
    refine ⟨0x69, _, .int8 (write_isInt m0 (.inl rfl) (by omega) (by omega)), rfl, by omega, by omega, fun m pre => ?_⟩
    rw [ubjSint, if_pos h1, hm m m0, pre?]
  by_cases h2 : 0 ≤ i ∧ i ≤ 255
  · rw [if_neg h1, if_pos h2]
    have e : (i % 2 ^ 8).toNat = i.toNat := by omega
    refine ⟨0x55, [i.toNat], ?_, rfl, by omega, fun _ => rfl, fun m pre => ?_⟩
    · have := Num.uint8 (b := i.toNat) (by omega)
      rwa [Int.toNat_of_nonneg h2.1] at this
    · rw [ubjSint, if_neg h1, if_pos h2, e, writeNumber_one m (by omega), pre?]
  by_cases h3 : -32768 ≤ i ∧ i ≤ 32767
  · rw [if_neg h1, if_neg h2, if_pos h3]
    refine ⟨0x49, _, .int16 (write_isInt m0 (.inr (.inl rfl)) (by omega) (by omega)), rfl, by omega, by omega,
      fun m pre => ?_⟩
    rw [ubjSint, if_neg h1, if_neg h2, if_pos h3, hm m m0, pre?]
  by_cases h4 : -2147483648 ≤ i ∧ i ≤ 2147483647
  · rw [if_neg h1, if_neg h2, if_neg h3, if_pos h4]
    refine ⟨0x6C, _, .int32 (write_isInt m0 (.inr (.inr (.inl rfl))) (by omega) (by omega)), rfl, by omega,
      by omega, fun m pre => ?_⟩
    rw [ubjSint, if_neg h1, if_neg h2, if_neg h3, if_pos h4, hm m m0, pre?]
  · rw [if_neg h1, if_neg h2, if_neg h3, if_neg h4]
    refine ⟨0x4C, _, .int64 (write_isInt m0 (.inr (.inr (.inr rfl))) (by omega) (by omega)), rfl, by omega,
      by omega, fun m pre => ?_⟩
    rw [ubjSint, if_neg h1, if_neg h2, if_neg h3, if_neg h4, if_pos (by omega), hm m m0, pre?]

theorem ubjPrefix_marker (v : Json Nat) : ubjPrefix v ∈ markers ∧ ubjPrefix v < 256 := by
  cases v with
  | bool b => cases b <;> decide
  | int i => simp only [ubjPrefix]; split <;> (try split) <;> (try split) <;> (try split) <;> decide
  | uint n => simp only [ubjPrefix]; split <;> (try split) <;> (try split) <;> (try split) <;> decide
  | _ => simp [ubjPrefix, markers]

/-! ## What is written is a value -/

/-- what is needed for a value to be written, and to be read with containers of at most `A` elements and `O` members -/
structure UbjFits (A O : Nat) (lax cnt : Bool) (fs us : List Nat) (ss : List Bytes) (as os : List Nat) : Prop where
  fl : ∀ x ∈ fs, x < 2 ^ 64
  ui : ∀ n ∈ us, n < 2 ^ 63
  st : ∀ s ∈ ss, s.length < 2 ^ 63 ∧ (lax = true ∨ Utf8 s)
  ar : cnt = true → ∀ n ∈ as, n < 2 ^ 63 ∧ n ≤ A
  ob : cnt = true → ∀ n ∈ os, n < 2 ^ 63 ∧ n ≤ O

theorem UbjFits.mono {A O : Nat} {lax cnt : Bool} {fs us as os fs' us' as' os' : List Nat} {ss ss' : List Bytes}
    (h : UbjFits A O lax cnt fs us ss as os) (h1 : ∀ x ∈ fs', x ∈ fs) (h2 : ∀ x ∈ us', x ∈ us) (h3 : ∀ x ∈ ss', x ∈ ss)
    (h4 : ∀ x ∈ as', x ∈ as) (h5 : ∀ x ∈ os', x ∈ os) : UbjFits A O lax cnt fs' us' ss' as' os' :=
  ⟨fun x hx => h.fl x (h1 x hx), fun x hx => h.ui x (h2 x hx), fun x hx => h.st x (h3 x hx),
    fun c x hx => h.ar c x (h4 x hx), fun c x hx => h.ob c x (h5 x hx)⟩

theorem ubjShared_spec {cnt ty : Bool} (hct : ty = true → cnt = true) (vs : List (Json Nat)) :
    ∃ c, ubjShared cnt ty vs = .ok c ∧ ∀ c', c = some c' → cnt = true ∧ (c' ∈ markers ∧ c' < 256) ∧ ∀ v ∈ vs, ubjPrefix v = c' := by
  cases vs with
  | nil => exact ⟨none, rfl, by simp⟩
  | cons v vs =>
    simp only [ubjShared]
    cases ty with
    | false => exact ⟨none, rfl, by simp⟩
    | true =>
      rw [if_pos rfl, if_pos (hct rfl)]
      refine ⟨_, rfl, fun c' h => ?_⟩
      by_cases ha : vs.all fun w => ubjPrefix w == ubjPrefix v
      · rw [if_pos ha] at h
        cases h
        refine ⟨hct rfl, ubjPrefix_marker v, fun w hw => ?_⟩
        rcases List.mem_cons.1 hw with rfl | hw
        · rfl
        · simpa using List.all_eq_true.1 ha w hw
      · rw [if_neg ha] at h; cases h

theorem ubj_text {lax : Bool} {s : Bytes} (hb : ∀ b ∈ s, b < 256) (h : s.length < 2 ^ 63 ∧ (lax = true ∨ Utf8 s)) :
    ∃ l, (∀ m, ubjUint m true s.length = .ok l) ∧ Text lax (l ++ s) s := by
  obtain ⟨c, l, hn, _, _, _, e⟩ := ubjUint_spec h.1
  exact ⟨c :: l, fun m => by rw [e]; rfl, .mk hn (.inl rfl) hb h.2⟩

theorem ubj_count {n : Nat} (h : n < 2 ^ 63) : ∃ l, (∀ m, ubjUint m true n = .ok l) ∧ Count (0x23 :: l) n := by
  obtain ⟨c, l, hn, _, _, _, e⟩ := ubjUint_spec h
  exact ⟨c :: l, fun m => by rw [e]; rfl, Count.mk (ns := []) (ns' := []) (by simp [Noops]) (by simp [Noops]) hn⟩

mutual
theorem ubjW_body {A O : Nat} {lax cnt ty : Bool} (hct : ty = true → cnt = true) : ∀ (v : Json Nat), Held v →
    UbjFits A O lax cnt (floats v) (uints v) (strings v) (arrSizes v) (objSizes v) →
    ∃ b, (∀ m pre, ubjW m cnt ty pre v = .ok (pre? pre (ubjPrefix v) ++ b)) ∧ Body A O lax (ubjPrefix v) b (byteUnsigned v)
  | .null, _, _ => ⟨[], fun m pre => by simp [ubjW, pre?, ubjPrefix], by rw [byteUnsigned]; exact .null⟩
  | .bool b, _, _ => by
    refine ⟨[], fun m pre => by simp [ubjW, pre?, ubjPrefix], ?_⟩
    rw [byteUnsigned]
    cases b
    · exact .false
    · exact .true
  | .int i, hv, _ => by
    rw [Held] at hv
    obtain ⟨c, b, hn, rfl, h1, h2, e⟩ := ubjSint_spec (i := i) (by omega) hv.2
    refine ⟨b, fun m pre => by rw [ubjW]; exact e m pre, ?_⟩
    rw [byteUnsigned]
    by_cases hc : ubjPrefix (.int i) = 0x55
    · rw [if_pos (h1.1 hc), h2 hc, hc]
      have := h1.1 hc
      exact .uint (by omega)
    · rw [if_neg fun h => hc (h1.2 h)]
      exact .int hc hn
  | .uint n, _, h => by
    obtain ⟨c, b, hn, rfl, h1, h2, e⟩ := ubjUint_spec (h.ui n (by simp [uints]))
    refine ⟨b, fun m pre => by rw [ubjW]; exact e m pre, ?_⟩
    rw [byteUnsigned]
    by_cases hc : ubjPrefix (.uint n) = 0x55
    · rw [if_pos (h1.1 hc), h2 hc, hc]
      have := h1.1 hc
      exact .uint (by omega)
    · rw [if_neg fun h => hc (h1.2 h)]
      exact .int hc hn
  | .float x, _, h => by
    let m0 : Mach := ⟨true, 0, 0, 0⟩
    have hx := h.fl x (by simp [floats])
    refine ⟨writeNumber m0 false 8 x, fun m pre => by simp [ubjW, pre?, ubjPrefix, writeNumber_eq], ?_⟩
    have := Body.double (A := A) (O := O) (lax := lax) (writeNumber_length m0 8 x) (writeNumber_lt m0 8 x)
    rw [writeNumber_big m0 (by omega)] at this
    rw [byteUnsigned]
    exact this
  | .str s, hv, h => by
    rw [Held] at hv
    obtain ⟨l, e, ht⟩ := ubj_text hv (h.st s (by simp [strings]))
    refine ⟨l ++ s, fun m pre => by rw [ubjW, e]; simp [Outcome.bind, pre?, ubjPrefix], ?_⟩
    rw [byteUnsigned]
    exact .str ht
  | .arr xs, hv, h => by
    rw [Held] at hv
    rw [floats, uints, strings, arrSizes, objSizes] at h
    obtain ⟨c, e1, hc⟩ := ubjShared_spec hct xs
    obtain ⟨t, e2, ht⟩ := ubjWL_elems hct xs c (fun c' h => (hc c' h).2.2) hv
      (h.mono (fun _ h => h) (fun _ h => h) (fun _ h => h) (fun _ h => by simp [h]) fun _ h => h)
    rw [byteUnsigned]
    cases cnt with
    | false =>
      obtain rfl : c = none := by
        cases c with
        | none => rfl
        | some c => exact absurd (hc c rfl).1 (by simp)
      simp only [Option.isNone_none] at e2
      exact ⟨t ++ ([] ++ [0x5D]), fun m pre => by rw [ubjW, e1]; simp [Outcome.bind, ubjStart, e2, pre?, ubjPrefix],
        .arr ht (by simp [Noops])⟩
    | true =>
      have hl := h.ar rfl xs.length (by simp)
      obtain ⟨l, e3, hn⟩ := ubj_count hl.1
      rw [← byteUnsignedL_length xs] at hn
      cases c with
      | none =>
        simp only [Option.isNone_none] at e2
        exact ⟨(0x23 :: l) ++ t, fun m pre => by rw [ubjW, e1]; simp [Outcome.bind, ubjStart, e2, e3, pre?, ubjPrefix],
          .arrCount hn (by rw [byteUnsignedL_length]; exact hl.2) ht⟩
      | some c =>
        have hm := (hc c rfl).2.1
        have hne := marker_ne hm.1
        simp only [Option.isNone_some] at e2
        exact ⟨[] ++ 0x24 :: c :: ((0x23 :: l) ++ t),
          fun m pre => by rw [ubjW, e1]; simp [Outcome.bind, ubjStart, e2, e3, pre?, ubjPrefix],
          .arrType (by simp [Noops]) hn (by rw [byteUnsignedL_length]; exact hl.2) (.inr hm.1) hm.2 hne.2.2.2.2.2 hne.1 ht⟩
  | .obj ms, hv, h => by
    rw [Held] at hv
    rw [floats, uints, strings, arrSizes, objSizes] at h
    obtain ⟨c, e1, hc⟩ := ubjShared_spec hct (ms.map (·.2))
    obtain ⟨t, e2, ht⟩ := ubjWM_pairs hct ms (!cnt) c (fun c' h kv hkv => (hc c' h).2.2 _ (List.mem_map_of_mem hkv)) hv
      (h.mono (fun _ h => h) (fun _ h => h) (fun _ h => h) (fun _ h => h) fun _ h => by simp [h])
    rw [byteUnsigned]
    cases cnt with
    | false =>
      obtain rfl : c = none := by
        cases c with
        | none => rfl
        | some c => exact absurd (hc c rfl).1 (by simp)
      simp only [Option.isNone_none] at e2
      exact ⟨t ++ ([] ++ [0x7D]), fun m pre => by rw [ubjW, e1]; simp [Outcome.bind, ubjStart, e2, pre?, ubjPrefix],
        .obj ht (by simp [Noops])⟩
    | true =>
      have hl := h.ob rfl ms.length (by simp)
      obtain ⟨l, e3, hn⟩ := ubj_count hl.1
      rw [← byteUnsignedM_length ms] at hn
      cases c with
      | none =>
        simp only [Option.isNone_none] at e2
        exact ⟨(0x23 :: l) ++ t, fun m pre => by rw [ubjW, e1]; simp [Outcome.bind, ubjStart, e2, e3, pre?, ubjPrefix],
          .objCount hn (by rw [byteUnsignedM_length]; exact hl.2) ht⟩
      | some c =>
        have hm := (hc c rfl).2.1
        have hne := marker_ne hm.1
        simp only [Option.isNone_some] at e2
        exact ⟨[] ++ 0x24 :: c :: ((0x23 :: l) ++ t),
          fun m pre => by rw [ubjW, e1]; simp [Outcome.bind, ubjStart, e2, e3, pre?, ubjPrefix],
          .objType (by simp [Noops]) hn (by rw [byteUnsignedM_length]; exact hl.2) (.inr hm.1) hm.2 hne.2.2.2.2.2 ht⟩
theorem ubjWL_elems {A O : Nat} {lax cnt ty : Bool} (hct : ty = true → cnt = true) : ∀ (vs : List (Json Nat))
    (c : Option Nat), (∀ c', c = some c' → ∀ v ∈ vs, ubjPrefix v = c') → HeldL vs →
    UbjFits A O lax cnt (floatsL vs) (uintsL vs) (stringsL vs) (arrSizesL vs) (objSizesL vs) →
    ∃ t, (∀ m, ubjWL m cnt ty c.isNone vs = .ok t) ∧ Elems A O lax c t (byteUnsignedL vs)
  | [], c, _, _, _ => ⟨[], fun m => by rw [ubjWL], by rw [byteUnsignedL]; exact .nil⟩
  | v :: vs, c, hc, hv, h => by
    rw [HeldL] at hv
    rw [floatsL, uintsL, stringsL, arrSizesL, objSizesL] at h
    obtain ⟨b, e1, hb⟩ := ubjW_body hct v hv.1 (h.mono (fun _ h => by simp [h]) (fun _ h => by simp [h])
      (fun _ h => by simp [h]) (fun _ h => by simp [h]) fun _ h => by simp [h])
    obtain ⟨t, e2, ht⟩ := ubjWL_elems hct vs c (fun c' h v hv => hc c' h v (by simp [hv])) hv.2
      (h.mono (fun _ h => by simp [h]) (fun _ h => by simp [h])
      (fun _ h => by simp [h]) (fun _ h => by simp [h]) fun _ h => by simp [h])
    refine ⟨(pre? c.isNone (ubjPrefix v) ++ b) ++ t, fun m => by rw [ubjWL, e1, e2]; simp [Outcome.bind], ?_⟩
    rw [byteUnsignedL]
    refine .cons ?_ ht
    cases c with
    | none => exact Elem.own (ns := []) (by simp [Noops]) hb
    | some c =>
      rw [hc c rfl v (by simp)] at hb
      exact Elem.shared hb
theorem ubjWM_pairs {A O : Nat} {lax cnt ty : Bool} (hct : ty = true → cnt = true) : ∀ (ms : List (Bytes × Json Nat))
    (opened : Bool) (c : Option Nat), (∀ c', c = some c' → ∀ kv ∈ ms, ubjPrefix kv.2 = c') → HeldM ms →
    UbjFits A O lax cnt (floatsM ms) (uintsM ms) (stringsM ms) (arrSizesM ms) (objSizesM ms) →
    ∃ t, (∀ m, ubjWM m cnt ty c.isNone ms = .ok t) ∧ Pairs A O lax opened c t (byteUnsignedM ms)
  | [], _, c, _, _, _ => ⟨[], fun m => by rw [ubjWM], by rw [byteUnsignedM]; exact .nil⟩
  | (k, v) :: ms, opened, c, hc, hv, h => by
    rw [HeldM] at hv
    rw [floatsM, uintsM, stringsM, arrSizesM, objSizesM] at h
    obtain ⟨l, e0, ht0⟩ := ubj_text hv.1 (h.st k (by simp))
    obtain ⟨b, e1, hb⟩ := ubjW_body hct v hv.2.1 (h.mono (fun _ h => by simp [h]) (fun _ h => by simp [h])
      (fun _ h => by simp [h]) (fun _ h => by simp [h]) fun _ h => by simp [h])
    obtain ⟨t, e2, ht⟩ := ubjWM_pairs hct ms opened c (fun c' h v hv => hc c' h v (by simp [hv])) hv.2.2
      (h.mono (fun _ h => by simp [h]) (fun _ h => by simp [h])
      (fun _ h => by simp [h]) (fun _ h => by simp [h]) fun _ h => by simp [h])
    refine ⟨[] ++ ((l ++ k) ++ ((pre? c.isNone (ubjPrefix v) ++ b) ++ t)),
      fun m => by rw [ubjWM, e0, e1, e2]; simp [Outcome.bind], ?_⟩
    rw [byteUnsignedM]
    refine .cons (by simp [Noops]) (.inr rfl) ht0 ?_ ht
    cases c with
    | none => exact Elem.own (ns := []) (by simp [Noops]) hb
    | some c =>
      have := hc c rfl (k, v) (by simp)
      simp only at this
      rw [this] at hb
      exact Elem.shared hb
end

/-! ## What is refused -/

theorem ubjUint_kind (m : Mach) (pre : Bool) (n : Nat) :
    if n < 2 ^ 63 then ∃ b, ubjUint m pre n = .ok b else ubjUint m pre n = .throws "out_of_range.407" := by
  split
  · next h =>
    obtain ⟨c, b, _, _, _, _, e⟩ := ubjUint_spec h
    exact ⟨_, e m pre⟩
  · rw [ubjUint, if_neg (by omega), if_neg (by omega), if_neg (by omega), if_neg (by omega), if_neg (by omega)]

mutual
theorem ubjW_refuses (m : Mach) {cnt ty : Bool} (hct : ty = true → cnt = true) : ∀ (v : Json Nat), Held v →
    (∀ s ∈ strings v, s.length < 2 ^ 63) → (∀ n ∈ arrSizes v, n < 2 ^ 63) → (∀ n ∈ objSizes v, n < 2 ^ 63) →
    ∀ pre, if ∃ n ∈ uints v, 2 ^ 63 ≤ n then ubjW m cnt ty pre v = .throws "out_of_range.407"
      else ∃ b, ubjW m cnt ty pre v = .ok b
  | .null, _, _, _, _, pre => by simp [uints, ubjW]
  | .bool b, _, _, _, _, pre => by simp [uints, ubjW]
  | .int i, hv, _, _, _, pre => by
    rw [Held] at hv
    obtain ⟨c, b, _, _, _, _, e⟩ := ubjSint_spec (i := i) (by omega) hv.2
    simp [uints, ubjW, e]
  | .uint n, _, _, _, _, pre => by
    have := ubjUint_kind m pre n
    rw [ubjW]
    simp only [uints, List.mem_singleton, exists_eq_left]
    by_cases h : n < 2 ^ 63
    · rw [if_neg (by omega)]; rwa [if_pos h] at this
    · rw [if_pos (by omega)]; rwa [if_neg h] at this
  | .float x, _, _, _, _, pre => by simp [uints, ubjW]
  | .str s, _, h, _, _, pre => by
    have := ubjUint_kind m true s.length
    rw [if_pos (h s (by simp [strings]))] at this
    obtain ⟨b, e⟩ := this
    rw [ubjW, e]
    simp [uints, Outcome.bind]
  | .arr xs, hv, h1, h2, h3, pre => by
    rw [Held] at hv
    rw [strings] at h1
    rw [arrSizes] at h2
    rw [objSizes] at h3
    obtain ⟨c, e1, _⟩ := ubjShared_spec hct xs
    have e2 := ubjUint_kind m true xs.length
    rw [if_pos (h2 _ (by simp))] at e2
    obtain ⟨l, e2⟩ := e2
    have e3 := ubjWL_refuses m hct xs hv h1 (fun n hn => h2 n (by simp [hn])) h3 c.isNone
    rw [uints, ubjW, e1]
    simp only [Outcome.bind, ubjStart, e2]
    cases cnt <;> split at e3 <;> rename_i hx <;> simp only [Bool.false_eq_true, ↓reduceIte, Outcome.bind, hx]
    · rw [e3]
    · obtain ⟨b, e3⟩ := e3; rw [e3]; exact ⟨_, rfl⟩
    · rw [e3]
    · obtain ⟨b, e3⟩ := e3; rw [e3]; exact ⟨_, rfl⟩
  | .obj ms, hv, h1, h2, h3, pre => by
    rw [Held] at hv
    rw [strings] at h1
    rw [arrSizes] at h2
    rw [objSizes] at h3
    obtain ⟨c, e1, _⟩ := ubjShared_spec hct (ms.map (·.2))
    have e2 := ubjUint_kind m true ms.length
    rw [if_pos (h3 _ (by simp))] at e2
    obtain ⟨l, e2⟩ := e2
    have e3 := ubjWM_refuses m hct ms hv h1 h2 (fun n hn => h3 n (by simp [hn])) c.isNone
    rw [uints, ubjW, e1]
    simp only [Outcome.bind, ubjStart, e2]
    cases cnt <;> split at e3 <;> rename_i hx <;> simp only [Bool.false_eq_true, ↓reduceIte, Outcome.bind, hx]
    · rw [e3]
    · obtain ⟨b, e3⟩ := e3; rw [e3]; exact ⟨_, rfl⟩
    · rw [e3]
    · obtain ⟨b, e3⟩ := e3; rw [e3]; exact ⟨_, rfl⟩
theorem ubjWL_refuses (m : Mach) {cnt ty : Bool} (hct : ty = true → cnt = true) : ∀ (vs : List (Json Nat)), HeldL vs →
    (∀ s ∈ stringsL vs, s.length < 2 ^ 63) → (∀ n ∈ arrSizesL vs, n < 2 ^ 63) → (∀ n ∈ objSizesL vs, n < 2 ^ 63) →
    ∀ pre, if ∃ n ∈ uintsL vs, 2 ^ 63 ≤ n then ubjWL m cnt ty pre vs = .throws "out_of_range.407"
      else ∃ b, ubjWL m cnt ty pre vs = .ok b
  | [], _, _, _, _, pre => by simp [uintsL, ubjWL]
  | v :: vs, hv, h1, h2, h3, pre => by
    rw [HeldL] at hv
    rw [stringsL] at h1
    rw [arrSizesL] at h2
    rw [objSizesL] at h3
    have e1 := ubjW_refuses m hct v hv.1 (fun n hn => h1 n (by simp [hn])) (fun n hn => h2 n (by simp [hn]))
      (fun n hn => h3 n (by simp [hn])) pre
    have e2 := ubjWL_refuses m hct vs hv.2 (fun n hn => h1 n (by simp [hn])) (fun n hn => h2 n (by simp [hn]))
      (fun n hn => h3 n (by simp [hn])) pre
    rw [uintsL, ubjWL]
    simp only [List.mem_append, or_and_right, exists_or]
    split at e1
    · next hx => rw [if_pos (.inl hx), e1]; rfl
    · next hx =>
      obtain ⟨b, e1⟩ := e1
      split at e2
      · next hy => rw [if_pos (.inr hy), e1, e2]; rfl
      · next hy =>
        obtain ⟨b', e2⟩ := e2
        rw [if_neg (by rintro (h | h); exacts [hx h, hy h]), e1, e2]
        exact ⟨_, rfl⟩
theorem ubjWM_refuses (m : Mach) {cnt ty : Bool} (hct : ty = true → cnt = true) : ∀ (ms : List (Bytes × Json Nat)),
    HeldM ms →
    (∀ s ∈ stringsM ms, s.length < 2 ^ 63) → (∀ n ∈ arrSizesM ms, n < 2 ^ 63) → (∀ n ∈ objSizesM ms, n < 2 ^ 63) →
    ∀ pre, if ∃ n ∈ uintsM ms, 2 ^ 63 ≤ n then ubjWM m cnt ty pre ms = .throws "out_of_range.407"
      else ∃ b, ubjWM m cnt ty pre ms = .ok b
  | [], _, _, _, _, pre => by simp [uintsM, ubjWM]
  | (k, v) :: ms, hv, h1, h2, h3, pre => by
    rw [HeldM] at hv
    rw [stringsM] at h1
    rw [arrSizesM] at h2
    rw [objSizesM] at h3
    have e0 := ubjUint_kind m true k.length
    rw [if_pos (h1 k (by simp))] at e0
    obtain ⟨l, e0⟩ := e0
    have e1 := ubjW_refuses m hct v hv.2.1 (fun n hn => h1 n (by simp [hn])) (fun n hn => h2 n (by simp [hn]))
      (fun n hn => h3 n (by simp [hn])) pre
    have e2 := ubjWM_refuses m hct ms hv.2.2 (fun n hn => h1 n (by simp [hn])) (fun n hn => h2 n (by simp [hn]))
      (fun n hn => h3 n (by simp [hn])) pre
    rw [uintsM, ubjWM, e0]
    simp only [List.mem_append, or_and_right, exists_or]
    split at e1
    · next hx => rw [if_pos (.inl hx), e1]; rfl
    · next hx =>
      obtain ⟨b, e1⟩ := e1
      split at e2
      · next hy => rw [if_pos (.inr hy), e1, e2]; rfl
      · next hy =>
        obtain ⟨b', e2⟩ := e2
        rw [if_neg (by rintro (h | h); exacts [hx h, hy h]), e1, e2]
        exact ⟨_, rfl⟩
end

/-! ## The bytes do not depend on the machine -/

theorem ubjUint_portable (m m' : Mach) (pre : Bool) (n : Nat) : ubjUint m pre n = ubjUint m' pre n := by
  simp only [ubjUint, writeNumber_eq]

theorem ubjSint_portable (m m' : Mach) (pre : Bool) (i : Int) : ubjSint m pre i = ubjSint m' pre i := by
  simp only [ubjSint, writeNumber_eq]

mutual
theorem ubjW_portable (m m' : Mach) (cnt ty : Bool) : ∀ (pre : Bool) (v : Json Nat), ubjW m cnt ty pre v = ubjW m' cnt ty pre v
  | pre, .null => by simp only [ubjW]
  | pre, .bool b => by simp only [ubjW]
  | pre, .int i => by simp only [ubjW]; rw [ubjSint_portable m m']
  | pre, .uint n => by simp only [ubjW]; rw [ubjUint_portable m m']
  | pre, .float x => by simp only [ubjW, writeNumber_eq]
  | pre, .str s => by simp only [ubjW]; rw [ubjUint_portable m m']
  | pre, .arr xs => by
    simp only [ubjW, ubjStart, ubjUint_portable m m', fun p => ubjWL_portable m m' cnt ty p xs]
  | pre, .obj ms => by
    simp only [ubjW, ubjStart, ubjUint_portable m m', fun p => ubjWM_portable m m' cnt ty p ms]
theorem ubjWL_portable (m m' : Mach) (cnt ty : Bool) : ∀ (pre : Bool) (vs : List (Json Nat)),
    ubjWL m cnt ty pre vs = ubjWL m' cnt ty pre vs
  | pre, [] => by simp only [ubjWL]
  | pre, v :: vs => by rw [ubjWL, ubjWL, ubjW_portable m m' cnt ty pre v, ubjWL_portable m m' cnt ty pre vs]
theorem ubjWM_portable (m m' : Mach) (cnt ty : Bool) : ∀ (pre : Bool) (ms : List (Bytes × Json Nat)),
    ubjWM m cnt ty pre ms = ubjWM m' cnt ty pre ms
  | pre, [] => by simp only [ubjWM]
  | pre, (k, v) :: ms => by
    rw [ubjWM, ubjWM, ubjUint_portable m m', ubjW_portable m m' cnt ty pre v, ubjWM_portable m m' cnt ty pre ms]
end

/-! ## How long integers are -/

theorem ubjSint_length (m : Mach) (i : Int) : ∀ b, ubjSint m false i = .ok b →
    (b.length = 1 ∧ -128 ≤ i ∧ i ≤ 255) ∨ (b.length = 2 ∧ ¬ (-128 ≤ i ∧ i ≤ 255)) ∨
    (b.length = 4 ∧ ¬ (-32768 ≤ i ∧ i ≤ 32767)) ∨ (b.length = 8 ∧ ¬ (-2147483648 ≤ i ∧ i ≤ 2147483647)) := by
  intro b h
  rw [ubjSint] at h
  simp only [Bool.false_eq_true, if_false, List.nil_append] at h
  rcases ite_cases h with ⟨hc, h⟩ | ⟨hc, h⟩
  · cases h; left; rw [writeNumber_length]; omega
  rcases ite_cases h with ⟨hc', h⟩ | ⟨hc', h⟩
  · cases h; left; rw [writeNumber_length]; omega
  rcases ite_cases h with ⟨hc2, h⟩ | ⟨hc2, h⟩
  · cases h; right; left; rw [writeNumber_length]; omega
  rcases ite_cases h with ⟨hc3, h⟩ | ⟨hc3, h⟩
  · cases h; right; right; left; rw [writeNumber_length]; omega
  rcases ite_cases h with ⟨hc4, h⟩ | ⟨hc4, h⟩
  · cases h; right; right; right; rw [writeNumber_length]; omega
  · cases h

theorem ubj_same (m : Mach) {i : Int} (h0 : 0 ≤ i) (h1 : i < 2 ^ 63) (pre : Bool) : ubjUint m pre i.toNat = ubjSint m pre i := by
  rw [ubjUint, ubjSint]
  by_cases h2 : i ≤ 127
  · have e : (i % 2 ^ 8).toNat = i.toNat := by omega
    rw [if_pos (by omega)]
    rw [if_pos (by omega), e]
  by_cases h3 : i ≤ 255
  · have e : (i % 2 ^ 8).toNat = i.toNat := by omega
    rw [if_neg (by omega), if_pos (by omega)]
    rw [if_neg (by omega), if_pos (by omega), e]
  by_cases h4 : i ≤ 32767
  · have e : (i % 2 ^ 16).toNat = i.toNat := by omega
    rw [if_neg (by omega), if_neg (by omega), if_pos (by omega)]
    rw [if_neg (by omega), if_neg (by omega), if_pos (by omega), e]
  by_cases h5 : i ≤ 2147483647
  · have e : (i % 2 ^ 32).toNat = i.toNat := by omega
    rw [if_neg (by omega), if_neg (by omega), if_neg (by omega), if_pos (by omega)]
    rw [if_neg (by omega), if_neg (by omega), if_neg (by omega), if_pos (by omega), e]
  · have e : (i % 2 ^ 64).toNat = i.toNat := by omega
    rw [if_neg (by omega), if_neg (by omega), if_neg (by omega), if_neg (by omega), if_pos (by omega)]
    rw [if_neg (by omega), if_neg (by omega), if_neg (by omega), if_neg (by omega), if_pos (by omega), e]

/-! ## The value read back -/

mutual
theorem tidy_byteUnsigned : ∀ (v : Json F), Ordered v → tidy (byteUnsigned v) = byteUnsigned v
  | .null, _ | .bool _, _ | .float _, _ | .str _, _ => by rw [byteUnsigned, tidy]
  | .uint n, _ => by rw [byteUnsigned]; split <;> rw [tidy]
  | .int i, _ => by rw [byteUnsigned]; split <;> rw [tidy]
  | .arr xs, h => by rw [Ordered] at h; rw [byteUnsigned, tidy, tidyL_byteUnsigned xs h]
  | .obj ms, h => by
    rw [Ordered] at h
    rw [byteUnsigned, tidy, tidyM_byteUnsigned ms [] h.1 h.2 (by simp)]
    simp
theorem tidyL_byteUnsigned : ∀ (vs : List (Json F)), OrderedL vs → tidyL (byteUnsignedL vs) = byteUnsignedL vs
  | [], _ => by rw [byteUnsignedL, tidyL]
  | v :: vs, h => by
    rw [OrderedL] at h
    rw [byteUnsignedL, tidyL, tidy_byteUnsigned v h.1, tidyL_byteUnsigned vs h.2]
theorem tidyM_byteUnsigned : ∀ (ms acc : List (Bytes × Json F)),
    ms.Pairwise (fun a b => a.1 < b.1) → OrderedM ms → (∀ x ∈ acc, ∀ y ∈ ms, x.1 < y.1) →
    tidyM acc (byteUnsignedM ms) = acc ++ byteUnsignedM ms
  | [], acc, _, _, _ => by rw [byteUnsignedM, tidyM, List.append_nil]
  | (k, v) :: ms, acc, hs, ho, hacc => by
    rw [OrderedM] at ho
    rw [List.pairwise_cons] at hs
    rw [byteUnsignedM, tidyM, tidy_byteUnsigned v ho.1, setKey_last fun x hx => hacc x hx (k, v) (by simp),
      tidyM_byteUnsigned ms _ hs.2 ho.2]
    · simp
    · intro x hx y hy
      rcases List.mem_append.mp hx with hx | hx
      · exact hacc x hx y (by simp [hy])
      · simp only [List.mem_cons, List.not_mem_nil, or_false] at hx
        subst hx
        exact hs.1 y hy
end

mutual
theorem eqV_byteUnsigned {L : Type} [LinearOrder L] (fo : FloatOrder F L) : ∀ (v : Json F), (∀ n ∈ uints v, n < 2 ^ 63) →
    (eqV fo (byteUnsigned v) v = true ↔ ∀ x ∈ floats v, fo.place x ≠ none)
  | .arr xs, hu => by
    rw [uints] at hu; rw [byteUnsigned, floats]; simp only [eqV]; exact eqL_byteUnsigned fo xs hu
  | .obj ms, hu => by
    rw [uints] at hu; rw [byteUnsigned, floats]; simp only [eqV]; exact eqM_byteUnsigned fo ms hu
  | .null, _ | .bool _, _ | .str _, _ => by simp [byteUnsigned, eqV, floats]
  | .int i, _ => by
    simp only [byteUnsigned, floats, List.not_mem_nil, false_implies, implies_true, iff_true]
    split
    · simp only [eqV, beq_iff_eq]
      rw [toSigned_small (by omega)]
      omega
    · simp [eqV]
  | .uint n, hu => by
    have := hu n (by simp [uints])
    simp only [byteUnsigned, floats, List.not_mem_nil, false_implies, implies_true, iff_true]
    split
    · simp [eqV]
    · simp only [eqV, beq_iff_eq]
      rw [toSigned_small (by omega)]
  | .float x, _ => by
    simpa [byteUnsigned, eqV, floats] using fo.eq_self x
theorem eqL_byteUnsigned {L : Type} [LinearOrder L] (fo : FloatOrder F L) : ∀ (vs : List (Json F)),
    (∀ n ∈ uintsL vs, n < 2 ^ 63) → (eqL fo (byteUnsignedL vs) vs = true ↔ ∀ x ∈ floatsL vs, fo.place x ≠ none)
  | [], _ => by simp [byteUnsignedL, eqL, floatsL]
  | v :: vs, hu => by
    simp only [uintsL, List.mem_append] at hu
    simp only [byteUnsignedL, eqL, floatsL, Bool.and_eq_true, List.mem_append, eqV_byteUnsigned fo v fun n hn => hu n (.inl hn),
      eqL_byteUnsigned fo vs fun n hn => hu n (.inr hn)]
    exact ⟨fun h x hx => hx.elim (h.1 x) (h.2 x), fun h => ⟨fun x hx => h x (.inl hx), fun x hx => h x (.inr hx)⟩⟩
theorem eqM_byteUnsigned {L : Type} [LinearOrder L] (fo : FloatOrder F L) : ∀ (ms : List (Bytes × Json F)),
    (∀ n ∈ uintsM ms, n < 2 ^ 63) → (eqM fo (byteUnsignedM ms) ms = true ↔ ∀ x ∈ floatsM ms, fo.place x ≠ none)
  | [], _ => by simp [byteUnsignedM, eqM, floatsM]
  | (k, v) :: ms, hu => by
    simp only [uintsM, List.mem_append] at hu
    simp only [byteUnsignedM, eqM, floatsM, Bool.and_eq_true, beq_self_eq_true, true_and, List.mem_append,
      eqV_byteUnsigned fo v fun n hn => hu n (.inl hn), eqM_byteUnsigned fo ms fun n hn => hu n (.inr hn)]
    exact ⟨fun h x hx => hx.elim (h.1 x) (h.2 x), fun h => ⟨fun x hx => h x (.inl hx), fun x hx => h x (.inr hx)⟩⟩
end

end Verif.Json
