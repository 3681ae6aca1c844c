import Verif.Json.BsonRun
import Verif.Json.CborWrite
import Verif.Json.PropsCompare

/-!
# What is written is a BSON document
-/

namespace Verif.Json
open Spec Spec.Bson

namespace Spec

mutual
/-- the names in a value, at any depth -/
def names : Json F → List Bytes
  | .arr xs => namesL xs
  | .obj ms => namesM ms
  | .null | .bool _ | .int _ | .uint _ | .float _ | .str _ => []
def namesL : List (Json F) → List Bytes
  | [] => []
  | v :: vs => names v ++ namesL vs
def namesM : List (Bytes × Json F) → List Bytes
  | [] => []
  | (k, v) :: ms => k :: (names v ++ namesM ms)
end

mutual
/-- the strings in a value, at any depth, without the names -/
def texts : Json F → List Bytes
  | .str s => [s]
  | .arr xs => textsL xs
  | .obj ms => textsM ms
  | .null | .bool _ | .int _ | .uint _ | .float _ => []
def textsL : List (Json F) → List Bytes
  | [] => []
  | v :: vs => texts v ++ textsL vs
def textsM : List (Bytes × Json F) → List Bytes
  | [] => []
  | (_, v) :: ms => texts v ++ textsM ms
end

mutual
/-- the unsigned integers in a value, at any depth -/
def uints : Json F → List Nat
  | .uint n => [n]
  | .arr xs => uintsL xs
  | .obj ms => uintsM ms
  | .null | .bool _ | .int _ | .float _ | .str _ => []
def uintsL : List (Json F) → List Nat
  | [] => []
  | v :: vs => uints v ++ uintsL vs
def uintsM : List (Bytes × Json F) → List Nat
  | [] => []
  | (_, v) :: ms => uints v ++ uintsM ms
end

mutual
/-- the same value, all integers signed -/
def signed : Json F → Json F
  | .uint n => .int n
  | .arr xs => .arr (signedL xs)
  | .obj ms => .obj (signedM ms)
  | .null => .null
  | .bool b => .bool b
  | .int i => .int i
  | .float x => .float x
  | .str s => .str s
def signedL : List (Json F) → List (Json F)
  | [] => []
  | v :: vs => signed v :: signedL vs
def signedM : List (Bytes × Json F) → List (Bytes × Json F)
  | [] => []
  | (k, v) :: ms => (k, signed v) :: signedM ms
end

end Spec

/-! ## Numbers -/

theorem writeLittle_eq (m : Mach) (w n : Nat) : writeNumber m true w n = lowBytes w n := by
  cases h : m.little <;> simp [writeNumber, memBytes, h]

theorem little_lowBytes {w n : Nat} (h : n < 256 ^ w) : little (lowBytes w n) = n := big_lowBytes w n h

theorem size_isInt (N : Nat) : ∃ n, IsInt 4 (lowBytes 4 (N % 2 ^ 32)) n ∧ (N < 2 ^ 31 → n = N) := by
  refine ⟨_, isInt_asSigned (k := 2) (by decide) (by decide) (lowBytes_length _ _) (lowBytes_lt _ _), fun h => ?_⟩
  rw [little_lowBytes (by omega), asSigned, if_pos (by omega)]
  omega

theorem int_isInt {w : Nat} {i : Int} (hw : w = 4 ∨ w = 8) (h1 : -2 ^ (8 * w - 1) ≤ i) (h2 : i < 2 ^ (8 * w - 1)) :
    IsInt w (lowBytes w (i % 2 ^ (8 * w)).toNat) i := by
  refine ⟨lowBytes_length _ _, lowBytes_lt _ _, h1, h2, ?_⟩
  rcases hw with rfl | rfl
  · rw [little_lowBytes (by omega)]; omega
  · rw [little_lowBytes (by omega)]; omega

theorem uint_isInt {w n : Nat} (hw : w = 4 ∨ w = 8) (h : n < 2 ^ (8 * w - 1)) : IsInt w (lowBytes w n) (n : Int) := by
  rcases hw with rfl | rfl
  · exact ⟨lowBytes_length _ _, lowBytes_lt _ _, by omega, by omega, by rw [little_lowBytes (by omega)]; omega⟩
  · exact ⟨lowBytes_length _ _, lowBytes_lt _ _, by omega, by omega, by rw [little_lowBytes (by omega)]; omega⟩

/-! ## Sizes -/

theorem toStr_zero (i : Nat) : 0 ∉ toStr i := by
  intro h
  rw [toStr_eq] at h
  have := digits_digit i 0 h
  simp [Digit] at this

theorem toStr_header (i : Nat) : bsonHeaderSize (toStr i) = .ok (1 + (toStr i).length + 1) := by
  rw [bsonHeaderSize, if_neg (toStr_zero i)]

mutual
theorem bsonSize_refuses : ∀ (v : Json Nat), (∃ k ∈ names v, 0 ∈ k) → bsonSize v = .throws "out_of_range.409"
  | .arr xs, h => by
    rw [names] at h; rw [bsonSize, bsonSizeL_refuses 0 xs h]; rfl
  | .obj ms, h => by
    rw [names] at h; rw [bsonSize, bsonSizeM_refuses ms h]; rfl
  | .null, h | .bool _, h | .int _, h | .uint _, h | .float _, h | .str _, h => by simp [names] at h
theorem bsonSize_ok : ∀ (v : Json Nat), (∀ k ∈ names v, 0 ∉ k) → ∃ n, bsonSize v = .ok n
  | .arr xs, h => by
    rw [names] at h
    obtain ⟨n, e⟩ := bsonSizeL_ok 0 xs h
    rw [bsonSize, e]; exact ⟨_, rfl⟩
  | .obj ms, h => by
    rw [names] at h
    obtain ⟨n, e⟩ := bsonSizeM_ok ms h
    rw [bsonSize, e]; exact ⟨_, rfl⟩
  | .null, _ | .bool _, _ | .int _, _ | .uint _, _ | .float _, _ | .str _, _ => by rw [bsonSize]; exact ⟨_, rfl⟩
theorem bsonSizeL_refuses : ∀ (i : Nat) (vs : List (Json Nat)), (∃ k ∈ namesL vs, 0 ∈ k) →
    bsonSizeL i vs = .throws "out_of_range.409"
  | _, [], h => by simp [namesL] at h
  | i, v :: vs, h => by
    rw [bsonSizeL, toStr_header]
    by_cases hv : ∃ k ∈ names v, 0 ∈ k
    · rw [bsonSize_refuses v hv]; rfl
    · obtain ⟨n, e⟩ := bsonSize_ok v fun k hk h0 => hv ⟨k, hk, h0⟩
      rw [e, bsonSizeL_refuses (i + 1) vs]; · rfl
      obtain ⟨k, hk, h0⟩ := h
      rw [namesL, List.mem_append] at hk
      exact hk.elim (fun hk => absurd ⟨k, hk, h0⟩ hv) fun hk => ⟨k, hk, h0⟩
theorem bsonSizeL_ok : ∀ (i : Nat) (vs : List (Json Nat)), (∀ k ∈ namesL vs, 0 ∉ k) → ∃ n, bsonSizeL i vs = .ok n
  | _, [], _ => by rw [bsonSizeL]; exact ⟨_, rfl⟩
  | i, v :: vs, h => by
    simp only [namesL, List.mem_append] at h
    obtain ⟨n, e⟩ := bsonSize_ok v fun k hk => h k (.inl hk)
    obtain ⟨n', e'⟩ := bsonSizeL_ok (i + 1) vs fun k hk => h k (.inr hk)
    rw [bsonSizeL, toStr_header, e, e']
    exact ⟨_, rfl⟩
theorem bsonSizeM_refuses : ∀ (ms : List (Bytes × Json Nat)), (∃ k ∈ namesM ms, 0 ∈ k) →
    bsonSizeM ms = .throws "out_of_range.409"
  | [], h => by simp [namesM] at h
  | (k, v) :: ms, h => by
    rw [bsonSizeM, bsonHeaderSize]
    by_cases h0 : 0 ∈ k
    · rw [if_pos h0]; rfl
    · rw [if_neg h0]
      by_cases hv : ∃ k ∈ names v, 0 ∈ k
      · rw [bsonSize_refuses v hv]; rfl
      · obtain ⟨n, e⟩ := bsonSize_ok v fun k hk h0 => hv ⟨k, hk, h0⟩
        rw [e, bsonSizeM_refuses ms]; · rfl
        obtain ⟨k', hk, h0'⟩ := h
        rw [namesM, List.mem_cons, List.mem_append] at hk
        rcases hk with rfl | hk | hk
        · exact absurd h0' h0
        · exact absurd ⟨k', hk, h0'⟩ hv
        · exact ⟨k', hk, h0'⟩
theorem bsonSizeM_ok : ∀ (ms : List (Bytes × Json Nat)), (∀ k ∈ namesM ms, 0 ∉ k) → ∃ n, bsonSizeM ms = .ok n
  | [], _ => by rw [bsonSizeM]; exact ⟨_, rfl⟩
  | (k, v) :: ms, h => by
    simp only [namesM, List.mem_cons, List.mem_append] at h
    obtain ⟨n, e⟩ := bsonSize_ok v fun k hk => h k (.inr (.inl hk))
    obtain ⟨n', e'⟩ := bsonSizeM_ok ms fun k hk => h k (.inr (.inr hk))
    rw [bsonSizeM, bsonHeaderSize, if_neg (h k (.inl rfl)), e, e']
    exact ⟨_, rfl⟩
end

/-! ## What is written -/

/-- what is needed for the bytes to be a document: strings whose length can be given; and, for the specification, no
more than 2^31-1 bytes and UTF-8 -/
def BsonFits (lax : Bool) (len : Nat) (ts ss : List Bytes) : Prop :=
  (∀ s ∈ ts, s.length + 1 < 2 ^ 31) ∧ (lax = true ∨ (len < 2 ^ 31 ∧ ∀ s ∈ ss, Utf8 s))

theorem BsonFits.mono {lax : Bool} {len len' : Nat} {ts ts' ss ss' : List Bytes} (h : BsonFits lax len ts ss) (hl : len' ≤ len)
    (ht : ∀ s ∈ ts', s ∈ ts) (hs : ∀ s ∈ ss', s ∈ ss) : BsonFits lax len' ts' ss' :=
  ⟨fun s hs' => h.1 s (ht s hs'), h.2.imp id fun h2 => ⟨by omega, fun s hs' => h2.2 s (hs s hs')⟩⟩

theorem doc_fits {lax : Bool} {t : Bytes} {ms : List (Bytes × Json Nat)} {ts ss : List Bytes}
    (h : BsonFits lax (4 + t.length + 1) ts ss) (ht : Elems lax t ms) :
    Doc lax (lowBytes 4 ((4 + t.length + 1) % 2 ^ 32) ++ (t ++ [0])) ms := by
  obtain ⟨n, h1, h2⟩ := size_isInt (4 + t.length + 1)
  exact .mk h1 (h.2.imp id fun h3 => h2 h3.1) ht

theorem digits_utf8 (i : Nat) : Utf8 (digits i) :=
  utf8_ascii fun c hc => by have := digits_digit i c hc; simp only [Digit] at this; omega

mutual
theorem bsonElem_doc (lax : Bool) : ∀ (v : Json Nat), Held v → (∀ x ∈ floats v, x < 2 ^ 64) →
    (∀ k ∈ names v, 0 ∉ k) → (∀ n ∈ uints v, n < 2 ^ 63) →
    ∃ c t, (∀ m name, bsonElem m name v = .ok (c :: (name ++ 0 :: t))) ∧ bsonSize v = .ok t.length ∧
      (BsonFits lax t.length (texts v) (strings v) → Elem lax c t (signed v))
  | .null, _, _, _, _ =>
    ⟨0x0A, [], fun m name => by simp [bsonElem, bsonEntry], by simp [bsonSize], fun _ => by rw [signed]; exact .null⟩
  | .bool b, _, _, _, _ => by
    refine ⟨0x08, [if b then 1 else 0], fun m name => by simp [bsonElem, bsonEntry], by simp [bsonSize], fun _ => ?_⟩
    rw [signed]
    have h := Elem.bool (lax := lax) (b := if b then 1 else 0) (by cases b <;> decide) (.inr (by cases b <;> decide))
    cases b <;> simpa using h
  | .float x, _, hf, _, _ => by
    refine ⟨0x01, lowBytes 8 x, fun m name => by simp [bsonElem, bsonEntry, writeLittle_eq], ?_, fun _ => ?_⟩
    · rw [bsonSize, lowBytes_length]
    · have h := Elem.double (lax := lax) (lowBytes_length 8 x) (lowBytes_lt 8 x)
      have hx := hf x (by simp [floats])
      rw [little_lowBytes (by omega)] at h
      rw [signed]; exact h
  | .int i, hv, _, _, _ => by
    rw [Held] at hv
    by_cases hi : -2 ^ 31 ≤ i ∧ i ≤ 2 ^ 31 - 1
    · refine ⟨0x10, lowBytes 4 (i % 2 ^ 32).toNat, fun m name => ?_, ?_, fun _ => ?_⟩
      · rw [bsonElem, if_pos hi, writeLittle_eq]; simp [bsonEntry]
      · rw [bsonSize, if_pos hi, lowBytes_length]
      · rw [signed]; exact .int32 (int_isInt (w := 4) (.inl rfl) (by omega) (by omega))
    · refine ⟨0x12, lowBytes 8 (i % 2 ^ 64).toNat, fun m name => ?_, ?_, fun _ => ?_⟩
      · rw [bsonElem, if_neg hi, writeLittle_eq]; simp [bsonEntry]
      · rw [bsonSize, if_neg hi, lowBytes_length]
      · rw [signed]; exact .int64 (int_isInt (w := 8) (.inr rfl) (by omega) (by omega))
  | .uint n, _, _, _, hu => by
    have hn := hu n (by simp [uints])
    by_cases hi : n ≤ 2 ^ 31 - 1
    · refine ⟨0x10, lowBytes 4 n, fun m name => ?_, ?_, fun _ => ?_⟩
      · rw [bsonElem, if_pos hi, writeLittle_eq]; simp [bsonEntry]
      · rw [bsonSize, if_pos hi, lowBytes_length]
      · rw [signed]; exact .int32 (uint_isInt (w := 4) (.inl rfl) (by omega))
    · refine ⟨0x12, lowBytes 8 n, fun m name => ?_, ?_, fun _ => ?_⟩
      · rw [bsonElem, if_neg hi, if_pos (by omega), writeLittle_eq]; simp [bsonEntry]
      · rw [bsonSize, if_neg hi, lowBytes_length]
      · rw [signed]; exact .int64 (uint_isInt (w := 8) (.inr rfl) (by omega))
  | .str s, hv, _, _, _ => by
    rw [Held] at hv
    refine ⟨0x02, lowBytes 4 ((s.length + 1) % 2 ^ 32) ++ (s ++ [0]), fun m name => ?_, ?_, fun h => ?_⟩
    · rw [bsonElem, writeLittle_eq]; simp [bsonEntry]
    · rw [bsonSize]; simp [lowBytes_length]; omega
    · obtain ⟨n, h1, h2⟩ := size_isInt (s.length + 1)
      rw [h2 (h.1 s (by simp [texts]))] at h1
      rw [signed]
      exact .str h1 hv (by decide) (h.2.imp id fun h => ⟨rfl, h.2 s (by simp [strings])⟩)
  | .arr xs, hv, hf, hk, hu => by
    rw [Held] at hv; rw [floats] at hf; rw [names] at hk; rw [uints] at hu
    obtain ⟨t, h1, h2, h3⟩ := bsonElemsL_doc lax 0 xs hv hf hk hu
    refine ⟨0x04, lowBytes 4 ((4 + t.length + 1) % 2 ^ 32) ++ (t ++ [0]), fun m name => ?_, ?_, fun h => ?_⟩
    · rw [bsonElem, h2, h1]; simp [bsonEntry, writeLittle_eq, Outcome.bind]
    · rw [bsonSize, h2]; simp [Outcome.bind, lowBytes_length]; omega
    · rw [texts, strings] at h
      simp only [List.length_append, lowBytes_length, List.length_cons, List.length_nil] at h
      obtain ⟨ms, hm, e1, e2⟩ := h3 (h.mono (by omega) (fun _ h => h) fun _ h => h)
      rw [signed]
      refine .arr (doc_fits (h.mono (by omega) (fun _ h => h) fun _ h => h) hm) e1.symm (.inr ?_)
      have : ms.length = xs.length := by
        have := congrArg List.length e2
        simpa using this
      rw [e2, this, List.range_eq_range']
  | .obj ms, hv, hf, hk, hu => by
    rw [Held] at hv; rw [floats] at hf; rw [names] at hk; rw [uints] at hu
    obtain ⟨t, h1, h2, h3⟩ := bsonElemsM_doc lax ms hv hf hk hu
    refine ⟨0x03, lowBytes 4 ((4 + t.length + 1) % 2 ^ 32) ++ (t ++ [0]), fun m name => ?_, ?_, fun h => ?_⟩
    · rw [bsonElem, h2, h1]; simp [bsonEntry, writeLittle_eq, Outcome.bind]
    · rw [bsonSize, h2]; simp [Outcome.bind, lowBytes_length]; omega
    · rw [texts, strings] at h
      simp only [List.length_append, lowBytes_length, List.length_cons, List.length_nil] at h
      rw [signed]
      exact .obj (doc_fits (h.mono (by omega) (fun _ h => h) fun _ h => h)
        (h3 (h.mono (by omega) (fun _ h => h) fun _ h => h)))
theorem bsonElemsL_doc (lax : Bool) : ∀ (i : Nat) (vs : List (Json Nat)), HeldL vs → (∀ x ∈ floatsL vs, x < 2 ^ 64) →
    (∀ k ∈ namesL vs, 0 ∉ k) → (∀ n ∈ uintsL vs, n < 2 ^ 63) →
    ∃ t, (∀ m, bsonElemsL m i vs = .ok t) ∧ bsonSizeL i vs = .ok t.length ∧
      (BsonFits lax t.length (textsL vs) (stringsL vs) → ∃ ms, Elems lax t ms ∧ ms.map (·.2) = signedL vs ∧
        ms.map (·.1) = (List.range' i vs.length).map digits)
  | i, [], _, _, _, _ =>
    ⟨[], fun m => by rw [bsonElemsL], by simp [bsonSizeL], fun _ => ⟨[], .nil, by simp [signedL], by simp⟩⟩
  | i, v :: vs, hv, hf, hk, hu => by
    rw [HeldL] at hv; simp only [floatsL, List.mem_append] at hf; simp only [namesL, List.mem_append] at hk
    simp only [uintsL, List.mem_append] at hu
    obtain ⟨c, t, h1, h2, h3⟩ := bsonElem_doc lax v hv.1 (fun x hx => hf x (.inl hx)) (fun x hx => hk x (.inl hx))
      fun x hx => hu x (.inl hx)
    obtain ⟨ts, h4, h5, h6⟩ := bsonElemsL_doc lax (i + 1) vs hv.2 (fun x hx => hf x (.inr hx)) (fun x hx => hk x (.inr hx))
      fun x hx => hu x (.inr hx)
    refine ⟨c :: (toStr i ++ 0 :: (t ++ ts)), fun m => ?_, ?_, fun h => ?_⟩
    · rw [bsonElemsL, h1, h4]; simp [Outcome.bind]
    · rw [bsonSizeL, toStr_header, h2, h5]; simp [Outcome.bind]; omega
    · rw [textsL, stringsL] at h
      simp only [List.length_append, List.length_cons] at h
      have h7 := h3 (h.mono (by omega) (fun s hs => by simp [hs]) fun s hs => by simp [hs])
      obtain ⟨ms, h8, h9, h10⟩ := h6 (h.mono (by omega) (fun s hs => by simp [hs]) fun s hs => by simp [hs])
      refine ⟨(toStr i, signed v) :: ms, .cons (toStr_zero i) ?_ (.inr ?_) h7 h8, by simp [h9, signedL], ?_⟩
      · intro b hb
        rw [toStr_eq] at hb
        have := digits_digit i b hb
        simp only [Digit] at this; omega
      · rw [toStr_eq]; exact digits_utf8 i
      · simp [h10, toStr_eq, List.range'_succ]
theorem bsonElemsM_doc (lax : Bool) : ∀ (ms : List (Bytes × Json Nat)), HeldM ms → (∀ x ∈ floatsM ms, x < 2 ^ 64) →
    (∀ k ∈ namesM ms, 0 ∉ k) → (∀ n ∈ uintsM ms, n < 2 ^ 63) →
    ∃ t, (∀ m, bsonElemsM m ms = .ok t) ∧ bsonSizeM ms = .ok t.length ∧
      (BsonFits lax t.length (textsM ms) (stringsM ms) → Elems lax t (signedM ms))
  | [], _, _, _, _ => ⟨[], fun m => by rw [bsonElemsM], by simp [bsonSizeM], fun _ => by rw [signedM]; exact .nil⟩
  | (k, v) :: ms, hv, hf, hk, hu => by
    rw [HeldM] at hv; simp only [floatsM, List.mem_append] at hf; simp only [namesM, List.mem_cons, List.mem_append] at hk
    simp only [uintsM, List.mem_append] at hu
    obtain ⟨c, t, h1, h2, h3⟩ := bsonElem_doc lax v hv.2.1 (fun x hx => hf x (.inl hx))
      (fun x hx => hk x (.inr (.inl hx))) fun x hx => hu x (.inl hx)
    obtain ⟨ts, h4, h5, h6⟩ := bsonElemsM_doc lax ms hv.2.2 (fun x hx => hf x (.inr hx))
      (fun x hx => hk x (.inr (.inr hx))) fun x hx => hu x (.inr hx)
    refine ⟨c :: (k ++ 0 :: (t ++ ts)), fun m => ?_, ?_, fun h => ?_⟩
    · rw [bsonElemsM, h1, h4]; simp [Outcome.bind]
    · rw [bsonSizeM, bsonHeaderSize, if_neg (hk k (.inl rfl)), h2, h5]; simp [Outcome.bind]; omega
    · rw [textsM, stringsM] at h
      simp only [List.length_append, List.length_cons] at h
      have h7 := h3 (h.mono (by omega) (fun s hs => by simp [hs]) fun s hs => by simp [hs])
      have h8 := h6 (h.mono (by omega) (fun s hs => by simp [hs]) fun s hs => by simp [hs])
      rw [signedM]
      exact .cons (hk k (.inl rfl)) hv.1 (h.2.imp id fun h => h.2 k (by simp)) h7 h8
end

/-! ## What is refused -/

mutual
theorem bsonElem_refuses (m : Mach) : ∀ (v : Json Nat) (name : Bytes), Held v → (∀ x ∈ floats v, x < 2 ^ 64) →
    (∀ k ∈ names v, 0 ∉ k) → (∃ n ∈ uints v, 2 ^ 63 ≤ n) → bsonElem m name v = .throws "out_of_range.407"
  | .null, _, _, _, _, h | .bool _, _, _, _, _, h | .int _, _, _, _, _, h | .float _, _, _, _, _, h
  | .str _, _, _, _, _, h => by simp [uints] at h
  | .uint n, _, _, _, _, h => by
    simp only [uints, List.mem_singleton, exists_eq_left] at h
    rw [bsonElem, if_neg (by omega), if_neg (by omega)]
  | .arr xs, name, hv, hf, hk, hu => by
    rw [Held] at hv; rw [floats] at hf; rw [names] at hk; rw [uints] at hu
    obtain ⟨n, e⟩ := bsonSizeL_ok 0 xs hk
    rw [bsonElem, e, bsonElemsL_refuses m 0 xs hv hf hk hu]; rfl
  | .obj ms, name, hv, hf, hk, hu => by
    rw [Held] at hv; rw [floats] at hf; rw [names] at hk; rw [uints] at hu
    obtain ⟨n, e⟩ := bsonSizeM_ok ms hk
    rw [bsonElem, e, bsonElemsM_refuses m ms hv hf hk hu]; rfl
theorem bsonElemsL_refuses (m : Mach) : ∀ (i : Nat) (vs : List (Json Nat)), HeldL vs → (∀ x ∈ floatsL vs, x < 2 ^ 64) →
    (∀ k ∈ namesL vs, 0 ∉ k) → (∃ n ∈ uintsL vs, 2 ^ 63 ≤ n) → bsonElemsL m i vs = .throws "out_of_range.407"
  | _, [], _, _, _, h => by simp [uintsL] at h
  | i, v :: vs, hv, hf, hk, hu => by
    rw [HeldL] at hv; simp only [floatsL, List.mem_append] at hf; simp only [namesL, List.mem_append] at hk
    simp only [uintsL, List.mem_append] at hu
    rw [bsonElemsL]
    by_cases h : ∃ n ∈ uints v, 2 ^ 63 ≤ n
    · rw [bsonElem_refuses m v _ hv.1 (fun x hx => hf x (.inl hx)) (fun x hx => hk x (.inl hx)) h]; rfl
    · obtain ⟨c, t, h1, _, _⟩ := bsonElem_doc true v hv.1 (fun x hx => hf x (.inl hx)) (fun x hx => hk x (.inl hx))
        fun n hn => by by_contra hc; exact h ⟨n, hn, by omega⟩
      rw [h1, bsonElemsL_refuses m (i + 1) vs hv.2 (fun x hx => hf x (.inr hx)) (fun x hx => hk x (.inr hx))]; · rfl
      obtain ⟨n, hn, hn'⟩ := hu
      exact hn.elim (fun hn => absurd ⟨n, hn, hn'⟩ h) fun hn => ⟨n, hn, hn'⟩
theorem bsonElemsM_refuses (m : Mach) : ∀ (ms : List (Bytes × Json Nat)), HeldM ms → (∀ x ∈ floatsM ms, x < 2 ^ 64) →
    (∀ k ∈ namesM ms, 0 ∉ k) → (∃ n ∈ uintsM ms, 2 ^ 63 ≤ n) → bsonElemsM m ms = .throws "out_of_range.407"
  | [], _, _, _, h => by simp [uintsM] at h
  | (k, v) :: ms, hv, hf, hk, hu => by
    rw [HeldM] at hv; simp only [floatsM, List.mem_append] at hf; simp only [namesM, List.mem_cons, List.mem_append] at hk
    simp only [uintsM, List.mem_append] at hu
    rw [bsonElemsM]
    by_cases h : ∃ n ∈ uints v, 2 ^ 63 ≤ n
    · rw [bsonElem_refuses m v _ hv.2.1 (fun x hx => hf x (.inl hx)) (fun x hx => hk x (.inr (.inl hx))) h]; rfl
    · obtain ⟨c, t, h1, _, _⟩ := bsonElem_doc true v hv.2.1 (fun x hx => hf x (.inl hx))
        (fun x hx => hk x (.inr (.inl hx))) fun n hn => by by_contra hc; exact h ⟨n, hn, by omega⟩
      rw [h1, bsonElemsM_refuses m ms hv.2.2 (fun x hx => hf x (.inr hx)) (fun x hx => hk x (.inr (.inr hx)))]; · rfl
      obtain ⟨n, hn, hn'⟩ := hu
      exact hn.elim (fun hn => absurd ⟨n, hn, hn'⟩ h) fun hn => ⟨n, hn, hn'⟩
end

/-! ## The value with signed integers -/

mutual
theorem tidy_signed : ∀ (v : Json F), Ordered v → tidy (signed v) = signed v
  | .null, _ | .bool _, _ | .uint _, _ | .int _, _ | .float _, _ | .str _, _ => by rw [signed, tidy]
  | .arr xs, h => by rw [Ordered] at h; rw [signed, tidy, tidyL_signed xs h]
  | .obj ms, h => by
    rw [Ordered] at h
    rw [signed, tidy, tidyM_signed ms [] h.1 h.2 (by simp)]
    simp
theorem tidyL_signed : ∀ (vs : List (Json F)), OrderedL vs → tidyL (signedL vs) = signedL vs
  | [], _ => by rw [signedL, tidyL]
  | v :: vs, h => by
    rw [OrderedL] at h
    rw [signedL, tidyL, tidy_signed v h.1, tidyL_signed vs h.2]
theorem tidyM_signed : ∀ (ms acc : List (Bytes × Json F)),
    ms.Pairwise (fun a b => a.1 < b.1) → OrderedM ms → (∀ x ∈ acc, ∀ y ∈ ms, x.1 < y.1) →
    tidyM acc (signedM ms) = acc ++ signedM ms
  | [], acc, _, _, _ => by rw [signedM, tidyM, List.append_nil]
  | (k, v) :: ms, acc, hs, ho, hacc => by
    rw [OrderedM] at ho
    rw [List.pairwise_cons] at hs
    rw [signedM, tidyM, tidy_signed v ho.1, setKey_last fun x hx => hacc x hx (k, v) (by simp),
      tidyM_signed ms _ hs.2 ho.2]
    · simp
    · intro x hx y hy
      rcases List.mem_append.mp hx with hx | hx
      · exact hacc x hx y (by simp [hy])
      · simp only [List.mem_cons, List.not_mem_nil, or_false] at hx
        subst hx
        exact hs.1 y hy
end

mutual
theorem eqV_signed {L : Type} [LinearOrder L] (fo : FloatOrder F L) : ∀ (v : Json F), (∀ n ∈ uints v, n < 2 ^ 63) →
    (eqV fo (signed v) v = true ↔ ∀ x ∈ floats v, fo.place x ≠ none)
  | .arr xs, hu => by
    rw [uints] at hu; rw [signed, floats]; simp only [eqV]; exact eqL_signed fo xs hu
  | .obj ms, hu => by
    rw [uints] at hu; rw [signed, floats]; simp only [eqV]; exact eqM_signed fo ms hu
  | .null, _ | .bool _, _ | .str _, _ | .int _, _ => by simp [signed, eqV, floats]
  | .uint n, hu => by
    have := hu n (by simp [uints])
    simp only [signed, eqV, floats, List.not_mem_nil, false_implies, implies_true, iff_true, beq_iff_eq]
    rw [toSigned_small (by omega)]
  | .float x, _ => by
    simpa [signed, eqV, floats] using fo.eq_self x
theorem eqL_signed {L : Type} [LinearOrder L] (fo : FloatOrder F L) : ∀ (vs : List (Json F)),
    (∀ n ∈ uintsL vs, n < 2 ^ 63) → (eqL fo (signedL vs) vs = true ↔ ∀ x ∈ floatsL vs, fo.place x ≠ none)
  | [], _ => by simp [signedL, eqL, floatsL]
  | v :: vs, hu => by
    simp only [uintsL, List.mem_append] at hu
    simp only [signedL, eqL, floatsL, Bool.and_eq_true, List.mem_append, eqV_signed fo v fun n hn => hu n (.inl hn),
      eqL_signed fo vs fun n hn => hu n (.inr hn)]
    exact ⟨fun h x hx => hx.elim (h.1 x) (h.2 x), fun h => ⟨fun x hx => h x (.inl hx), fun x hx => h x (.inr hx)⟩⟩
theorem eqM_signed {L : Type} [LinearOrder L] (fo : FloatOrder F L) : ∀ (ms : List (Bytes × Json F)),
    (∀ n ∈ uintsM ms, n < 2 ^ 63) → (eqM fo (signedM ms) ms = true ↔ ∀ x ∈ floatsM ms, fo.place x ≠ none)
  | [], _ => by simp [signedM, eqM, floatsM]
  | (k, v) :: ms, hu => by
    simp only [uintsM, List.mem_append] at hu
    simp only [signedM, eqM, floatsM, Bool.and_eq_true, beq_self_eq_true, true_and, List.mem_append,
      eqV_signed fo v fun n hn => hu n (.inl hn), eqM_signed fo ms fun n hn => hu n (.inr hn)]
    exact ⟨fun h x hx => hx.elim (h.1 x) (h.2 x), fun h => ⟨fun x hx => h x (.inl hx), fun x hx => h x (.inr hx)⟩⟩
end

end Verif.Json
