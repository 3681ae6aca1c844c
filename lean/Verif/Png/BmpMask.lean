import Verif.Png.BmpAny

/-! # Pictures whose colours are given by masks -/

namespace Verif.Png

/-- the mask of `q.2` bits from the bit `q.1` on -/
def fieldMask (q : Nat × Nat) : Nat := (2 ^ q.2 - 1) * 2 ^ q.1

/-- one to eight bits of a number of 32 bits -/
def IsField (q : Nat × Nat) : Prop := 1 ≤ q.2 ∧ q.2 ≤ 8 ∧ q.1 + q.2 ≤ 32

instance (q : Nat × Nat) : Decidable (IsField q) := inferInstanceAs (Decidable (_ ∧ _ ∧ _))

/-- the sample of eight bits for the bits of a field: its part of the largest value, of 256 and not above 255 -/
def fieldSample (v : Nat) (q : Nat × Nat) : Nat := min 255 (256 * (v / 2 ^ q.1 % 2 ^ q.2) / (2 ^ q.2 - 1))

theorem mask_and (v s b : Nat) : v &&& (2 ^ b - 1) * 2 ^ s = v / 2 ^ s % 2 ^ b * 2 ^ s := by
  rw [← Nat.and_two_pow_sub_one_eq_mod, ← Nat.shiftLeft_eq, ← Nat.shiftLeft_eq, ← Nat.shiftRight_eq_div_pow]
  refine Nat.eq_of_testBit_eq fun i => ?_
  simp only [Nat.testBit_and, Nat.testBit_shiftLeft, Nat.testBit_shiftRight]
  by_cases h : s ≤ i
  · simp [h]
  · simp [h]

theorem field_bits : ∀ b < 9, ∀ s < 33, 1 ≤ b → s + b ≤ 32 →
    Nat.log2 ((2 ^ b - 1) * 2 ^ s) = s + b - 1 ∧ bitCount ((2 ^ b - 1) * 2 ^ s) = b ∧ (2 ^ b - 1) * 2 ^ s ≠ 0 := by decide +kernel

theorem field_table : ∀ b < 9, ∀ f < 256, 1 ≤ b → f < 2 ^ b →
    ((f * 2 ^ (8 - b)) >>> (8 - b) * mulTable.getD b 0) >>> shiftTable.getD b 0 = min 255 (256 * f / (2 ^ b - 1)) := by decide +kernel

/-- what `stbi__shiftsigned` makes of the bits of a mask without gaps -/
theorem shiftSigned_field (v : Nat) {q : Nat × Nat} (hq : IsField q) :
    shiftSigned (v &&& fieldMask q) (fieldMask q) = .ok (fieldSample v q) := by
  obtain ⟨s, b⟩ := q
  obtain ⟨h1, h2, h3⟩ := hq
  simp only at h1 h2 h3
  obtain ⟨g1, g2, g3⟩ := field_bits b (by omega) s (by omega) h1 h3
  have hp : (2 : Nat) ^ b ≤ 2 ^ 8 := Nat.pow_le_pow_right (by omega) h2
  have hf : v / 2 ^ s % 2 ^ b < 2 ^ b := Nat.mod_lt _ (Nat.two_pow_pos _)
  have hh : highBit (fieldMask (s, b)) = (s + b - 1 : Nat) := by rw [highBit, fieldMask, if_neg g3, g1]
  have key : (if highBit (fieldMask (s, b)) - 7 < 0 then ((v &&& fieldMask (s, b)) <<< (-(highBit (fieldMask (s, b)) - 7)).toNat) % 2 ^ 32
      else (v &&& fieldMask (s, b)) >>> (highBit (fieldMask (s, b)) - 7).toNat) = v / 2 ^ s % 2 ^ b * 2 ^ (8 - b) := by
    rw [hh, fieldMask, mask_and]
    simp only
    generalize v / 2 ^ s % 2 ^ b = f at hf ⊢
    have hlt : f * 2 ^ (8 - b) < 2 ^ 8 := by
      calc f * 2 ^ (8 - b) < 2 ^ b * 2 ^ (8 - b) := Nat.mul_lt_mul_of_pos_right hf (Nat.two_pow_pos _)
        _ = 2 ^ 8 := by rw [← Nat.pow_add]; congr 1; omega
    split
    · rw [show (-(((s + b - 1 : Nat) : Int) - 7)).toNat = 8 - b - s by omega, Nat.shiftLeft_eq, Nat.mul_assoc, ← Nat.pow_add,
        show s + (8 - b - s) = 8 - b by omega, Nat.mod_eq_of_lt (by omega)]
    · rw [show (((s + b - 1 : Nat) : Int) - 7).toNat = s + b - 8 by omega, Nat.shiftRight_eq_div_pow]
      have e : (2 : Nat) ^ s = 2 ^ (8 - b) * 2 ^ (s + b - 8) := by rw [← Nat.pow_add]; congr 1; omega
      rw [e, ← Nat.mul_assoc, Nat.mul_div_cancel _ (Nat.two_pow_pos _)]
  have h256 : v / 2 ^ s % 2 ^ b * 2 ^ (8 - b) < 256 := by
    calc v / 2 ^ s % 2 ^ b * 2 ^ (8 - b) < 2 ^ b * 2 ^ (8 - b) := Nat.mul_lt_mul_of_pos_right hf (Nat.two_pow_pos _)
      _ = 256 := by rw [← Nat.pow_add, show b + (8 - b) = 8 by omega]
  have hc : bitCount (fieldMask (s, b)) = b := g2
  rw [shiftSigned]
  simp only [key, hc]
  rw [if_neg (by omega), if_neg (by omega), field_table b (by omega) _ (by omega) h1 hf]
  rfl

/-- the bytes of a pixel as a number -/
def wordAt (bpp : Nat) (file : List UInt8) (k : Nat) : Nat := if bpp = 16 then le16 file k else le32 file k

/-- a channel of a pixel by masks; without a mask for it the fourth is 255 -/
def maskSample (fr fg fb : Nat × Nat) (fa : Option (Nat × Nat)) (v c : Nat) : UInt8 :=
  UInt8.ofNat (if c = 0 then fieldSample v fr else if c = 1 then fieldSample v fg else if c = 2 then fieldSample v fb
    else (fa.map (fieldSample v)).getD 255)

/-- the masks of a header are these fields -/
structure MaskedBy (info : Bmp) (fr fg fb : Nat × Nat) (fa : Option (Nat × Nat)) : Prop where
  r : info.mr = fieldMask fr ∧ IsField fr
  g : info.mg = fieldMask fg ∧ IsField fg
  b : info.mb = fieldMask fb ∧ IsField fb
  a : info.ma = (fa.map fieldMask).getD 0 ∧ ∀ q ∈ fa, IsField q

theorem fieldMask_ne {q : Nat × Nat} (h : IsField q) : fieldMask q ≠ 0 :=
  (field_bits q.2 (by have := h.2.1; omega) q.1 (by have := h.2.2; omega) h.1 h.2.2).2.2

theorem maskPixel_ok {info : Bmp} {fr fg fb : Nat × Nat} {fa : Option (Nat × Nat)} (hm : MaskedBy info fr fg fb fa) {wide : Bool} {n : Nat}
    (hn : n = if wide then 4 else 3) (hb : info.bpp = 16 ∨ info.bpp = 32) {file : List UInt8} (p : Px) (k : Nat) (hs : p.s.all = file.drop k)
    (hz : p.z + n ≤ p.out.size) : ∃ p', maskPixel info wide p = .ok p' ∧ p'.z = p.z + n ∧ p'.s.all = file.drop (k + info.bpp / 8) ∧
      p'.out.size = p.out.size ∧ (p.allA ≠ 0 → p'.allA ≠ 0) ∧
      (∀ c < n, p'.out.at_ (p.z + c) = some (maskSample fr fg fb fa (wordAt info.bpp file k) c)) ∧ (∀ q < p.z, p'.out.at_ q = p.out.at_ q) := by
  have hz3 : p.z + 3 ≤ p.out.size := by subst hn; split at hz <;> omega
  have h1 := get8_drop hs
  have h2 := get8_drop h1.2
  have h3 := get8_drop h2.2
  have h4 := get8_drop h3.2
  rw [maskPixel]
  simp only [h1.1, h2.1, h3.1, h4.1]
  have hp : ((if info.bpp = 16 then ((byteAt file k).toNat + (byteAt file (k + 1)).toNat * 256, (get8 (get8 p.s).2).2)
      else ((byteAt file k).toNat + (byteAt file (k + 1)).toNat * 256 + ((byteAt file (k + 1 + 1)).toNat + (byteAt file (k + 1 + 1 + 1)).toNat * 256) * 65536,
        (get8 (get8 (get8 (get8 p.s).2).2).2).2)) : Nat × Src).1 = wordAt info.bpp file k := by
    rw [wordAt]
    split
    · rw [le16]; ring
    · rw [le32, le16, le16]; ring
  have hq : ((if info.bpp = 16 then ((byteAt file k).toNat + (byteAt file (k + 1)).toNat * 256, (get8 (get8 p.s).2).2)
      else ((byteAt file k).toNat + (byteAt file (k + 1)).toNat * 256 + ((byteAt file (k + 1 + 1)).toNat + (byteAt file (k + 1 + 1 + 1)).toNat * 256) * 65536,
        (get8 (get8 (get8 (get8 p.s).2).2).2).2)) : Nat × Src).2.all = file.drop (k + info.bpp / 8) := by
    rcases hb with hb | hb
    · rw [hb, if_pos rfl]; exact h2.2
    · rw [hb, if_neg (by omega)]; exact h4.2
  generalize ((if info.bpp = 16 then ((byteAt file k).toNat + (byteAt file (k + 1)).toNat * 256, (get8 (get8 p.s).2).2)
      else ((byteAt file k).toNat + (byteAt file (k + 1)).toNat * 256 + ((byteAt file (k + 1 + 1)).toNat + (byteAt file (k + 1 + 1 + 1)).toNat * 256) * 65536,
        (get8 (get8 (get8 (get8 p.s).2).2).2).2)) : Nat × Src) = vs at hp hq ⊢
  obtain ⟨v, s⟩ := vs
  simp only at hp hq ⊢
  rw [← hp]
  have e4 : (if info.ma ≠ 0 then shiftSigned (v &&& info.ma) info.ma else .ok 255) = .ok ((fa.map (fieldSample v)).getD 255) := by
    obtain ⟨a1, a2⟩ := hm.a
    cases fa with
    | none => rw [a1]; rfl
    | some q =>
      have hf := a2 q rfl
      rw [a1, Option.map_some, Option.getD_some, if_pos (fieldMask_ne hf), shiftSigned_field v hf]; rfl
  rw [hm.r.1, hm.g.1, hm.b.1, e4, shiftSigned_field v hm.r.2, shiftSigned_field v hm.g.2, shiftSigned_field v hm.b.2]
  obtain ⟨m1, a1, a2, a3, a4⟩ := store_ok (m := p.out) (i := p.z) (UInt8.ofNat (fieldSample v fr)) (by omega)
  obtain ⟨m2, b1, b2, b3, b4⟩ := store_ok (m := m1) (i := p.z + 1) (UInt8.ofNat (fieldSample v fg)) (by omega)
  obtain ⟨m3, c1, c2, c3, c4⟩ := store_ok (m := m2) (i := p.z + 2) (UInt8.ofNat (fieldSample v fb)) (by omega)
  rw [Outcome.bind_ok, a1, Outcome.bind_ok, Outcome.bind_ok, b1, Outcome.bind_ok, Outcome.bind_ok, c1, Outcome.bind_ok, Outcome.bind_ok]
  have e0 : m3.at_ (p.z + 0) = some (maskSample fr fg fb fa v 0) := by rw [Nat.add_zero, c4 _ (by omega), b4 _ (by omega), a3]; rfl
  have e1 : m3.at_ (p.z + 1) = some (maskSample fr fg fb fa v 1) := by rw [c4 _ (by omega), b3]; rfl
  have e2 : m3.at_ (p.z + 2) = some (maskSample fr fg fb fa v 2) := by rw [c3]; rfl
  have e3 : ∀ q < p.z, m3.at_ q = p.out.at_ q := fun q hq => by rw [c4 _ (by omega), b4 _ (by omega), a4 _ (by omega)]
  have ha : ∀ a, p.allA ≠ 0 → p.allA ||| a ≠ 0 := fun a h h' => h ((or_zero_iff _ _).1 h').1
  subst hn
  cases wide with
  | false =>
    simp only [Bool.false_eq_true, if_false]
    refine ⟨_, rfl, rfl, hq, by simp only; omega, ha _, fun c hc => ?_, e3⟩
    simp only
    rcases (by omega : c = 0 ∨ c = 1 ∨ c = 2) with rfl | rfl | rfl
    · exact e0
    · exact e1
    · exact e2
  | true =>
    simp only [if_true] at hz ⊢
    obtain ⟨m4, d1, d2, d3, d4⟩ := store_ok (m := m3) (i := p.z + 3) (UInt8.ofNat ((fa.map (fieldSample v)).getD 255)) (by omega)
    rw [d1, Outcome.bind_ok]
    refine ⟨_, rfl, rfl, hq, by simp only; omega, ha _, fun c hc => ?_, fun q hq => by simp only; rw [d4 _ (by omega), e3 q hq]⟩
    simp only
    rcases (by omega : c = 0 ∨ c = 1 ∨ c = 2 ∨ c = 3) with rfl | rfl | rfl | rfl
    · rw [d4 _ (by omega)]; exact e0
    · rw [d4 _ (by omega)]; exact e1
    · rw [d4 _ (by omega)]; exact e2
    · rw [d3]; rfl

/-- a row of pixels, each of `len` bytes -/
theorem row_of_pixels {file : List UInt8} {n w len : Nat} {px : Px → Outcome Px} {pv : Nat → Nat → Option UInt8}
    (hpx : ∀ (p : Px) (k : Nat), p.s.all = file.drop k → p.z + n ≤ p.out.size → ∃ p', px p = .ok p' ∧
      p'.z = p.z + n ∧ p'.s.all = file.drop (k + len) ∧ p'.out.size = p.out.size ∧ (p.allA ≠ 0 → p'.allA ≠ 0) ∧
      (∀ c < n, p'.out.at_ (p.z + c) = pv k c) ∧ (∀ q < p.z, p'.out.at_ q = p.out.at_ q))
    (p : Px) (k : Nat) (hs : p.s.all = file.drop k) (hz : p.z + n * w ≤ p.out.size) :
    ∃ p', loop w (fun _ => px) p = .ok p' ∧
      p'.z = p.z + n * w ∧ p'.s.all = file.drop (k + len * w) ∧ p'.out.size = p.out.size ∧ (p.allA ≠ 0 → p'.allA ≠ 0) ∧
      (∀ i < w, ∀ c < n, p'.out.at_ (p.z + n * i + c) = pv (k + len * i) c) ∧ (∀ q < p.z, p'.out.at_ q = p.out.at_ q) := by
  refine loop_inv (P := fun (t : Nat) (p' : Px) => p'.z = p.z + n * t ∧ p'.s.all = file.drop (k + len * t) ∧ p'.out.size = p.out.size ∧
    (p.allA ≠ 0 → p'.allA ≠ 0) ∧ (∀ i < t, ∀ c < n, p'.out.at_ (p.z + n * i + c) = pv (k + len * i) c) ∧ (∀ q < p.z, p'.out.at_ q = p.out.at_ q))
    ⟨rfl, hs, rfl, id, fun i hi => absurd hi (by omega), fun _ _ => rfl⟩ ?_
  rintro t ht p1 ⟨h1, h2, h3, h4, h5, h6⟩
  have hle : n * (t + 1) ≤ n * w := Nat.mul_le_mul_left n ht
  rw [Nat.mul_add, Nat.mul_one] at hle
  obtain ⟨p2, g0, g1, g2, g3, g4, g5, g6⟩ := hpx p1 _ h2 (by rw [h1, h3]; omega)
  refine ⟨p2, g0, by rw [g1, h1]; ring, by rw [g2]; congr 1; ring, by omega, fun h => g4 (h4 h), fun i hi c hc => ?_, fun q hq => ?_⟩
  · by_cases hit : i = t
    · subst hit
      rw [← h1]; exact g5 c hc
    · have h7 : n * (i + 1) ≤ n * t := Nat.mul_le_mul_left _ (by omega)
      rw [Nat.mul_add] at h7
      rw [g6 _ (by omega)]
      exact h5 i (by omega) c hc
  · rw [g6 _ (by omega), h6 q hq]

/-- a picture by masks whose pixels follow its header -/
theorem bmpLoad_masks {file : List UInt8} {room n : Nat} {info : Bmp} {r : Rd} {fr fg fb : Nat × Nat} {fa : Option (Nat × Nat)}
    (hr : r.At file info.offset) (h128 : info.offset ≤ 128)
    (hh : info.hsz ≠ 12) (ho : info.offset = info.extra + info.hsz) (h0 : 0 < info.hsz) (hy : info.y ≠ 2 ^ 31) (hb : info.bpp = 16 ∨ info.bpp = 32)
    (hm : MaskedBy info fr fg fb fa) (he : ¬ (info.bpp = 32 ∧ info.mb = 0xff ∧ info.mg = 0xff00 ∧ info.mr = 0xff0000 ∧ info.ma = 0xff000000))
    (ha : info.allA ≠ 0) (hn : n = if info.ma ≠ 0 then 4 else 3) (hx : n * info.x < 2 ^ 31)
    (hsize : n * info.x * (int32 info.y).natAbs < 2 ^ 31) (hroom : n * info.x * (int32 info.y).natAbs ≤ room) :
    ∃ m, bmpLoad room info r = .ok ⟨info.x, (int32 info.y).natAbs, n, 8, m⟩ ∧ m.size = n * info.x * (int32 info.y).natAbs ∧
      ∀ Y < (int32 info.y).natAbs, ∀ X < info.x, ∀ c < n, m.at_ ((Y * info.x + X) * n + c) =
        some (maskSample fr fg fb fa (wordAt info.bpp file (info.offset + (info.x * info.bpp + 31) / 32 * 4 *
          (if 0 < int32 info.y then (int32 info.y).natAbs - 1 - Y else Y) + info.bpp / 8 * X)) c) := by
  have hpos : r.pos = info.offset := by rw [hr.pos (by omega)]; omega
  have hoff : int32 info.offset = info.offset := int32_small (by omega)
  have hn34 : n = if (n == 4) = true then 4 else 3 := by
    have : n = 3 ∨ n = 4 := by rw [hn]; split <;> simp
    rcases this with h | h <;> simp [h]
  have hxs : info.x < 2 ^ 31 := by
    have h3 : 3 ≤ n := by rw [hn34]; split <;> omega
    have := Nat.mul_le_mul_right info.x h3
    omega
  have hs : (skipInt r.src 0).all = file.drop info.offset := by
    rw [skipInt, if_neg (by omega), show (0 : Int).toNat = 0 from rfl, skip_drop (by omega), List.drop_zero, hr.all]
  have hn' : n = if info.bpp = 24 ∧ info.ma = 0xff000000 then 3 else if info.ma ≠ 0 then 4 else 3 := by rw [if_neg (by omega)]; exact hn
  rw [bmpLoad, if_neg hy, paletteSize_none hh (by omega)]
  simp only [Outcome.bind_ok]
  rw [if_neg (by rw [hoff, hpos]; simp)]
  simp only [← hn']
  rw [if_neg (by omega), if_neg (by omega), if_neg (by omega), bmpDirect, i32]
  rw [if_pos (by rw [hoff, ho]; omega)]
  simp only [Outcome.bind_ok]
  rw [show int32 info.offset - (info.extra : Int) - (info.hsz : Int) = 0 by rw [hoff, ho]; omega]
  have hne : ¬ (info.mr = 0 ∨ info.mg = 0 ∨ info.mb = 0) := by
    rw [hm.r.1, hm.g.1, hm.b.1]
    have := fieldMask_ne hm.r.2
    have := fieldMask_ne hm.g.2
    have := fieldMask_ne hm.b.2
    omega
  rw [if_neg (by omega), if_neg he, if_neg hne]
  obtain ⟨p, g0, g1, g2, g3⟩ := rows_ok (file := file) (n := n) (w := info.x) (y := (int32 info.y).natAbs) (len := info.bpp / 8 * info.x)
    (pad := if info.bpp = 16 then padOf (2 * info.x) else 0) (row := loop info.x fun _ => maskPixel info (n == 4))
    (pv := fun k i c => some (maskSample fr fg fb fa (wordAt info.bpp file (k + info.bpp / 8 * i)) c)) (by split <;> [rw [padOf]; skip] <;> omega)
    (fun p k h1 h2 => row_of_pixels (pv := fun k c => some (maskSample fr fg fb fa (wordAt info.bpp file k) c))
      (fun p k h1 h2 => maskPixel_ok hm hn34 hb p k h1 h2) p k h1 h2)
    (p := ⟨fresh (n * info.x * (int32 info.y).natAbs), 0, skipInt r.src 0, info.allA⟩) rfl hs rfl
  rw [g0, Outcome.bind_ok, if_neg (fun h => g2 ha h.2), Outcome.bind_ok]
  obtain ⟨m', f0, f1, f2⟩ := order_ok (up := 0 < int32 info.y) g1 g3
  rw [f0, Outcome.bind_ok]
  refine ⟨m', rfl, f1, fun Y hY X hX c hc => ?_⟩
  rw [f2 Y hY X hX c hc]
  rw [show info.bpp / 8 * info.x + (if info.bpp = 16 then padOf (2 * info.x) else 0) = (info.x * info.bpp + 31) / 32 * 4 by
    rcases hb with hb | hb <;> rw [hb]
    · rw [if_pos rfl, padOf]; omega
    · rw [if_neg (by omega)]; omega]

/-- the masks of a header of 40 or 56 bytes, behind it -/
theorem masks_fields {file : List UInt8} {info : Bmp} {r : Rd} (hr : r.At file 54) (hl : 14 + info.hsz + 12 ≤ file.length)
    (hs : info.hsz = 40 ∨ info.hsz = 56) (hb : info.bpp = 16 ∨ info.bpp = 32)
    (hd : ¬ (le32 file (14 + info.hsz) = le32 file (14 + info.hsz + 4) ∧ le32 file (14 + info.hsz + 4) = le32 file (14 + info.hsz + 8))) :
    ∃ r', bmpMasks info 3 r = .ok ({ info with mr := le32 file (14 + info.hsz), mg := le32 file (14 + info.hsz + 4), mb := le32 file (14 + info.hsz + 8), extra := info.extra + 12 }, r') ∧
      r'.At file (14 + info.hsz + 12) := by
  have h0 : (if info.hsz = 56 then rdSkip 16 r else r).At file (14 + info.hsz) := by
    rcases hs with hs | hs
    · rw [hs, if_neg (by omega)]; exact hr
    · rw [hs, if_pos rfl]; exact rdSkip_at 16 54 _ hr (by omega)
  have h1 := rd32_at h0 (by omega)
  have h2 := rd32_at h1.2 (by omega)
  have h3 := rd32_at h2.2 (by omega)
  rw [bmpMasks]
  refine ⟨_, by
    simp only [h1.1, h2.1, h3.1]
    rw [if_pos hb, if_neg (by omega), if_pos trivial, if_neg hd], h3.2⟩

/-- without masks five bits are for each colour -/
theorem masks_16 {file : List UInt8} {info : Bmp} {r : Rd} (hr : r.At file 54) (hl : 14 + info.hsz ≤ file.length)
    (hs : info.hsz = 40 ∨ info.hsz = 56) (hb : info.bpp = 16) :
    ∃ r', bmpMasks info 0 r = .ok ({ info with mr := fieldMask (10, 5), mg := fieldMask (5, 5), mb := fieldMask (0, 5) }, r') ∧
      r'.At file (14 + info.hsz) := by
  rw [bmpMasks]
  refine ⟨_, by simp only [if_true]; rw [if_pos (by omega), if_neg (by omega)]; rfl, ?_⟩
  rcases hs with hs | hs
  · rw [hs, if_neg (by omega)]; exact hr
  · rw [hs, if_pos rfl]; exact rdSkip_at 16 54 _ hr (by omega)

end Verif.Png
