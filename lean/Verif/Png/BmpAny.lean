import Verif.Png.BmpPal

/-! # Any file read as a BMP file -/

namespace Verif.Png

theorem rd8_val {file : List UInt8} {k : Nat} {r : Rd} (h : r.src.all = file.drop k) :
    (rd8 r).1 = byteAt file k ∧ (rd8 r).2.src.all = file.drop (k + 1) := get8_drop h

theorem rd16_val {file : List UInt8} {k : Nat} {r : Rd} (h : r.src.all = file.drop k) :
    (rd16 r).1 = le16 file k ∧ (rd16 r).2.src.all = file.drop (k + 2) := by
  have h1 := rd8_val h
  have h2 := rd8_val h1.2
  simp only [rd16]
  exact ⟨by rw [h1.1, h2.1, le16]; ring, h2.2⟩

theorem rd32_val {file : List UInt8} {k : Nat} {r : Rd} (h : r.src.all = file.drop k) :
    (rd32 r).1 = le32 file k ∧ (rd32 r).2.src.all = file.drop (k + 4) := by
  have h1 := rd16_val h
  have h2 := rd16_val h1.2
  simp only [rd32]
  exact ⟨by rw [h1.1, h2.1, le32]; ring, h2.2⟩

theorem rdSkip_val {file : List UInt8} : ∀ (n k : Nat) (r : Rd), r.src.all = file.drop k → (rdSkip n r).src.all = file.drop (k + n)
  | 0, _, _, h => h
  | n + 1, k, r, h => by
    rw [rdSkip, show k + (n + 1) = k + 1 + n by omega]
    exact rdSkip_val n (k + 1) _ (rd8_val h).2

/-- the places of the masks that a file gives -/
def maskPlaces (file : List UInt8) : List Nat :=
  if le32 file 14 = 108 ∨ le32 file 14 = 124 then [54, 58, 62, 66]
  else if le32 file 14 ≠ 12 ∧ le32 file 30 = 3 then (if le32 file 14 = 56 then [70, 74, 78] else [54, 58, 62])
  else []

/-- what a header may say, whatever the file -/
structure Fits (file : List UInt8) (info : Bmp) : Prop where
  y : info.y = le32 file 22 ∨ info.y < 65536
  offset : info.offset = le32 file 10
  hsz : info.hsz ≤ 124
  old : info.hsz = 12 → info.extra = 14
  extra : info.extra ≤ 26
  bpp : info.bpp < 65536
  masks : (∀ k ∈ maskPlaces file, bitCount (le32 file k) ≤ 8) → bitCount info.mr ≤ 8 ∧ bitCount info.mg ≤ 8 ∧ bitCount info.mb ≤ 8 ∧ bitCount info.ma ≤ 8

theorem bitCount_zero : bitCount 0 ≤ 8 := by decide

theorem bmpMasks_fits {file : List UInt8} {info : Bmp} {r : Rd} (hf : Fits file info) (hr : r.src.all = file.drop 54) (he : info.extra = 14)
    (hs : le32 file 14 = info.hsz) (h56 : info.hsz = 40 ∨ info.hsz = 56)
    (h0 : info.mr = 0 ∧ info.mg = 0 ∧ info.mb = 0 ∧ info.ma = 0) :
    (∃ e, bmpMasks info (le32 file 30) r = .throws e) ∨ ∃ info' r', bmpMasks info (le32 file 30) r = .ok (info', r') ∧ Fits file info' := by
  rw [bmpMasks]
  simp only
  obtain ⟨m1, m2, m3, m4⟩ := h0
  split
  · split
    · split
      · exact .inr ⟨_, _, rfl, hf.y, hf.offset, hf.hsz, hf.old, hf.extra, hf.bpp, fun _ => by simp only; decide⟩
      · exact .inr ⟨_, _, rfl, hf.y, hf.offset, hf.hsz, hf.old, hf.extra, hf.bpp, fun _ => by simp only [m4]; decide⟩
    · split
      · rename_i hc
        have hr' : (if info.hsz = 56 then rdSkip 16 r else r).src.all = file.drop (if info.hsz = 56 then 70 else 54) := by
          split
          · exact rdSkip_val 16 54 r hr
          · exact hr
        generalize (if info.hsz = 56 then rdSkip 16 r else r) = r1 at hr' ⊢
        have e1 := rd32_val hr'
        have e2 := rd32_val e1.2
        have e3 := rd32_val e2.2
        split
        · exact .inl ⟨_, rfl⟩
        · refine .inr ⟨_, _, rfl, hf.y, hf.offset, hf.hsz, fun h => ?_, by simp only [he]; omega, hf.bpp, fun h => ?_⟩
          · simp only at h; omega
          · rw [maskPlaces, if_neg (by omega), if_pos (by omega), hs] at h
            simp only [e1.1, e2.1, e3.1, m4]
            rcases h56 with h' | h'
            · rw [if_neg (by omega)] at h ⊢
              exact ⟨h 54 (by simp), h 58 (by simp), h 62 (by simp), bitCount_zero⟩
            · rw [if_pos (by omega)] at h ⊢
              exact ⟨h 70 (by simp), h 74 (by simp), h 78 (by simp), bitCount_zero⟩
      · exact .inl ⟨_, rfl⟩
  · exact .inr ⟨_, _, rfl, hf⟩

theorem bmpLong_fits {file : List UInt8} {info : Bmp} {r : Rd} (hf : Fits file info) (hr : r.src.all = file.drop 54)
    (hs : le32 file 14 = 108 ∨ le32 file 14 = 124) : ∃ info' r', bmpLong info r = .ok (info', r') ∧ Fits file info' := by
  have h1 := rd32_val hr
  have h2 := rd32_val h1.2
  have h3 := rd32_val h2.2
  have h4 := rd32_val h3.2
  rw [bmpLong]
  simp only [h1.1, h2.1, h3.1, h4.1, Nat.reduceAdd]
  refine ⟨_, _, rfl, hf.y, hf.offset, hf.hsz, hf.old, hf.extra, hf.bpp, fun h => ?_⟩
  rw [maskPlaces, if_pos hs] at h
  exact ⟨h 54 (by simp), h 58 (by simp), h 62 (by simp), h 66 (by simp)⟩

theorem header_fits (file : List UInt8) : (∃ e, bmpHeader ⟨start file, 0⟩ = .throws e) ∨
    ∃ info r, bmpHeader ⟨start file, 0⟩ = .ok (info, r) ∧ Fits file info := by
  have h0 : (⟨start file, 0⟩ : Rd).src.all = file.drop 0 := by rw [start_all]; rfl
  have h1 := rd8_val h0
  have h2 := rd8_val h1.2
  have h3 := rdSkip_val 8 _ _ h2.2
  have h4 := rd32_val h3
  have h5 := rd32_val h4.2
  rw [bmpHeader]
  simp only [h5.1, Nat.reduceAdd]
  simp only [Nat.reduceAdd] at h5
  by_cases c1 : (rd8 ⟨start file, 0⟩).1 = 66
  swap
  · rw [if_pos c1]; exact .inl ⟨_, rfl⟩
  rw [if_neg (not_not.2 c1)]
  by_cases c2 : (rd8 (rd8 ⟨start file, 0⟩).2).1 = 77
  swap
  · rw [if_pos c2]; exact .inl ⟨_, rfl⟩
  rw [if_neg (not_not.2 c2)]
  by_cases hhsz : le32 file 14 ≠ 12 ∧ le32 file 14 ≠ 40 ∧ le32 file 14 ≠ 56 ∧ le32 file 14 ≠ 108 ∧ le32 file 14 ≠ 124
  · rw [if_pos hhsz]; exact .inl ⟨_, rfl⟩
  rw [if_neg hhsz]
  by_cases h12 : le32 file 14 = 12
  · have h6 := rd16_val h5.2
    have h7 := rd16_val h6.2
    have h8 := rd16_val h7.2
    have h9 := rd16_val h8.2
    simp only [h12, if_true]
    split
    · exact .inl ⟨_, rfl⟩
    · rw [if_neg (by simp)]
      refine .inr ⟨_, _, rfl, .inr ?_, ?_, by simp only; omega, fun _ => rfl, by simp only; omega, ?_, fun _ => ⟨bitCount_zero, bitCount_zero, bitCount_zero, bitCount_zero⟩⟩
      · simp only [h7.1]; exact le16_lt _ _
      · simp only [h4.1, Nat.reduceAdd]
      · simp only [h9.1]; exact le16_lt _ _
  · have h6 := rd32_val h5.2
    have h7 := rd32_val h6.2
    have h8 := rd16_val h7.2
    have h9 := rd16_val h8.2
    have h10 := rd32_val h9.2
    have h11 := rdSkip_val 20 _ _ h10.2
    simp only [if_neg h12]
    split
    · exact .inl ⟨_, rfl⟩
    · split
      · exact .inl ⟨_, rfl⟩
      · simp only [h10.1, Nat.reduceAdd]
        simp only [Nat.reduceAdd] at h11
        have hfit : Fits file { bpp := (rd16 (rd16 (rd32 (rd32 (rd32 (rd32 (rdSkip 8 (rd8 (rd8 ⟨start file, 0⟩).2).2)).2).2).2).2).2).1, offset := (rd32 (rdSkip 8 (rd8 (rd8 ⟨start file, 0⟩).2).2)).1, hsz := le32 file 14, x := (rd32 (rd32 (rd32 (rdSkip 8 (rd8 (rd8 ⟨start file, 0⟩).2).2)).2).2).1, y := (rd32 (rd32 (rd32 (rd32 (rdSkip 8 (rd8 (rd8 ⟨start file, 0⟩).2).2)).2).2).2).1 } := by
          refine ⟨.inl ?_, ?_, by simp only; omega, fun h => absurd h h12, by simp only; omega, ?_, fun _ => ⟨bitCount_zero, bitCount_zero, bitCount_zero, bitCount_zero⟩⟩
          · simp only [h7.1, Nat.reduceAdd]
          · simp only [h4.1, Nat.reduceAdd]
          · simp only [h9.1]; exact le16_lt _ _
        split
        · rename_i hs
          exact bmpMasks_fits hfit h11 rfl rfl hs ⟨rfl, rfl, rfl, rfl⟩
        · rename_i hs
          exact .inr (bmpLong_fits hfit h11 (by omega))

theorem shiftSigned_ok {v mask : Nat} (hm : mask ≠ 0) (hb : bitCount mask ≤ 8) : ∃ x, shiftSigned (v &&& mask) mask = .ok x := by
  have h1 : v &&& mask ≤ mask := Nat.and_le_right
  have h2 : mask < 2 ^ (Nat.log2 mask + 1) := Nat.lt_log2_self
  have h3 : highBit mask = Nat.log2 mask := by rw [highBit, if_neg hm]
  have key : (if highBit mask - 7 < 0 then ((v &&& mask) <<< (-(highBit mask - 7)).toNat) % 2 ^ 32 else (v &&& mask) >>> (highBit mask - 7).toNat) < 256 := by
    rw [h3]
    split
    · rename_i hlt
      refine lt_of_le_of_lt (Nat.mod_le _ _) ?_
      rw [Nat.shiftLeft_eq]
      have e1 : (-((Nat.log2 mask : Int) - 7)).toNat = 7 - Nat.log2 mask := by omega
      rw [e1]
      calc (v &&& mask) * 2 ^ (7 - Nat.log2 mask) < 2 ^ (Nat.log2 mask + 1) * 2 ^ (7 - Nat.log2 mask) :=
            Nat.mul_lt_mul_of_pos_right (by omega) (Nat.two_pow_pos _)
        _ = 256 := by rw [← Nat.pow_add, show Nat.log2 mask + 1 + (7 - Nat.log2 mask) = 8 by omega]
    · rename_i hlt
      rw [Nat.shiftRight_eq_div_pow]
      have e1 : ((Nat.log2 mask : Int) - 7).toNat = Nat.log2 mask - 7 := by omega
      rw [e1, Nat.div_lt_iff_lt_mul (Nat.two_pow_pos _), show (256 : Nat) = 2 ^ 8 from rfl, ← Nat.pow_add,
        show 8 + (Nat.log2 mask - 7) = Nat.log2 mask + 1 by omega]
      omega
  rw [shiftSigned]
  rw [if_neg (by simpa using key), if_neg (by omega)]
  exact ⟨_, rfl⟩

/-- a row that fills its place in the picture -/
def Keeps (n w : Nat) (row : Px → Outcome Px) : Prop :=
  ∀ p : Px, p.z + n * w ≤ p.out.size → ∃ p', row p = .ok p' ∧ p'.z = p.z + n * w ∧ p'.out.size = p.out.size

theorem keeps_loop {n w : Nat} {px : Px → Outcome Px} (h : Keeps n 1 px) : Keeps n w (loop w fun _ => px) := by
  intro p hp
  refine loop_inv (P := fun (t : Nat) (p' : Px) => p'.z = p.z + n * t ∧ p'.out.size = p.out.size) ⟨rfl, rfl⟩ ?_
  rintro t ht p1 ⟨h1, h2⟩
  have hle : n * (t + 1) ≤ n * w := Nat.mul_le_mul_left n ht
  rw [Nat.mul_add, Nat.mul_one] at hle
  obtain ⟨p2, g0, g1, g2⟩ := h p1 (by rw [h1, h2, Nat.mul_one]; omega)
  exact ⟨p2, g0, by rw [g1, h1]; ring, by omega⟩

theorem keeps_easy {n : Nat} {four wide : Bool} (hn : n = if wide then 4 else 3) : Keeps n 1 (easyPixel four wide) := by
  intro p hp
  obtain ⟨p', h0, h1, _, h3, _⟩ := easyPixel_ok (four := four) (wide := wide) (file := p.s.all) (k := 0) (p := p) rfl (by rw [← hn]; omega)
  exact ⟨p', h0, by rw [h1, ← hn, Nat.mul_one], h3⟩

theorem keeps_mask {n : Nat} {info : Bmp} {wide : Bool} (hn : n = if wide then 4 else 3) (h0 : info.mr ≠ 0 ∧ info.mg ≠ 0 ∧ info.mb ≠ 0)
    (hb : bitCount info.mr ≤ 8 ∧ bitCount info.mg ≤ 8 ∧ bitCount info.mb ≤ 8 ∧ bitCount info.ma ≤ 8) : Keeps n 1 (maskPixel info wide) := by
  intro p hp
  have hz3 : p.z + 3 ≤ p.out.size := by subst hn; split at hp <;> omega
  rw [maskPixel]
  simp only
  generalize (if info.bpp = 16 then ((get8 p.s).1.toNat + (get8 (get8 p.s).2).1.toNat * 256, (get8 (get8 p.s).2).2) else _ : Nat × Src) = vs
  obtain ⟨v, s⟩ := vs
  simp only
  obtain ⟨x1, e1⟩ := shiftSigned_ok (v := v) h0.1 hb.1
  obtain ⟨x2, e2⟩ := shiftSigned_ok (v := v) h0.2.1 hb.2.1
  obtain ⟨x3, e3⟩ := shiftSigned_ok (v := v) h0.2.2 hb.2.2.1
  obtain ⟨x4, e4⟩ : ∃ x, (if info.ma ≠ 0 then shiftSigned (v &&& info.ma) info.ma else .ok 255) = .ok x := by
    split
    · rename_i h; exact shiftSigned_ok h hb.2.2.2
    · exact ⟨_, rfl⟩
  obtain ⟨m1, a1, a2, a3, a4⟩ := store_ok (m := p.out) (i := p.z) (UInt8.ofNat x1) (by omega)
  obtain ⟨m2, b1, b2, b3, b4⟩ := store_ok (m := m1) (i := p.z + 1) (UInt8.ofNat x2) (by omega)
  obtain ⟨m3, c1, c2, c3, c4⟩ := store_ok (m := m2) (i := p.z + 2) (UInt8.ofNat x3) (by omega)
  rw [e1, Outcome.bind_ok, a1, Outcome.bind_ok, e2, Outcome.bind_ok, b1, Outcome.bind_ok, e3, Outcome.bind_ok, c1, Outcome.bind_ok, e4, Outcome.bind_ok]
  subst hn
  cases wide with
  | false => exact ⟨_, rfl, rfl, by simp only; omega⟩
  | true =>
    simp only [if_true] at hp ⊢
    obtain ⟨m4, d1, d2, d3, d4⟩ := store_ok (m := m3) (i := p.z + 3) (UInt8.ofNat x4) (by omega)
    rw [d1, Outcome.bind_ok]
    exact ⟨_, rfl, rfl, by simp only; omega⟩

theorem keeps_rows {n w y pad : Nat} {row : Px → Outcome Px} (h : Keeps n w row) {p : Px} (hz : p.z = 0) (hs : p.out.size = n * w * y) :
    ∃ p', bmpRows row pad y p = .ok p' ∧ p'.out.size = n * w * y := by
  have := loop_inv (f := fun _ p => row p >>= fun p => .ok { p with s := skip p.s pad }) (n := y) (s := p)
    (P := fun (t : Nat) (p' : Px) => p'.z = n * w * t ∧ p'.out.size = n * w * y) ⟨by omega, hs⟩ ?_
  · obtain ⟨p', h0, _, h2⟩ := this
    exact ⟨p', h0, h2⟩
  rintro t ht p1 ⟨h1, h2⟩
  have hle : n * w * (t + 1) ≤ n * w * y := Nat.mul_le_mul_left _ ht
  rw [Nat.mul_add, Nat.mul_one] at hle
  obtain ⟨p2, g0, g1, g2⟩ := h p1 (by omega)
  exact ⟨_, by rw [g0, Outcome.bind_ok], by simp only; rw [g1, h1]; ring, by simp only; omega⟩

theorem keeps_pal1 {pal : List (UInt8 × UInt8 × UInt8)} {wide : Bool} {n w : Nat} (hn : n = if wide then 4 else 3) : Keeps n w (palRow1 pal wide w) := by
  intro p hp
  by_cases hw : 0 < w
  · obtain ⟨p', e0, _, e2⟩ := palRow1_ok (pal := pal) (file := p.s.all) (k := 0) hn hw rfl hp
    exact ⟨p', e0, e2.z, e2.size⟩
  · obtain rfl : w = 0 := by omega
    exact ⟨_, rfl, rfl, rfl⟩

theorem keeps_pal {pal : List (UInt8 × UInt8 × UInt8)} {wide : Bool} {n w bpp : Nat} (hn : n = if wide then 4 else 3) (hb : bpp = 4 ∨ bpp = 8) :
    Keeps n w (palRow pal wide bpp w) := by
  intro p hp
  rcases hb with rfl | rfl
  · obtain ⟨p', e0, _, e2⟩ := palRow4_ok (pal := pal) (file := p.s.all) (k := 0) hn rfl hp
    exact ⟨p', e0, e2.z, e2.size⟩
  · obtain ⟨p', e0, _, e2⟩ := palRow8_ok (pal := pal) (file := p.s.all) (k := 0) hn rfl hp
    exact ⟨p', e0, e2.z, e2.size⟩

/-- an outcome that is a value with a property or an error -/
def Safe {α : Type} (P : α → Prop) (o : Outcome α) : Prop := (∃ a, o = .ok a ∧ P a) ∨ (∃ e, o = .throws e) ∨ o = .assertFail

theorem int32_range (v : Nat) : -2 ^ 31 ≤ int32 v ∧ int32 v < 2 ^ 31 := by
  rw [int32]
  have := Nat.mod_lt v (show 0 < 2 ^ 32 by decide)
  split <;> omega

theorem int32_far {v : Nat} (hv : v < 2 ^ 32) (h : v < 2 ^ 31 ∨ 2 ^ 31 + 200 ≤ v) : -2 ^ 31 + 200 ≤ int32 v := by
  rw [int32, Nat.mod_eq_of_lt hv]
  split <;> omega

theorem bmpLoad_safe {room : Nat} {info : Bmp} {r : Rd} (hy : info.y ≠ 2 ^ 31) (hh : info.hsz ≤ 124) (he : info.extra ≤ 26)
    (ho : -2 ^ 31 + 200 ≤ int32 info.offset)
    (hm : 16 ≤ info.bpp → info.bpp ≠ 24 → bitCount info.mr ≤ 8 ∧ bitCount info.mg ≤ 8 ∧ bitCount info.mb ≤ 8 ∧ bitCount info.ma ≤ 8) :
    Safe (fun i => i.out.size = i.n * i.x * i.y ∧ i.out.size < 2 ^ 31 ∧ i.out.size ≤ room) (bmpLoad room info r) := by
  have hr := int32_range info.offset
  rw [bmpLoad, if_neg hy]
  have hp : ∃ ps, paletteSize info = .ok ps ∧ (info.hsz = 12 → info.bpp < 16 → ps = (int32 info.offset - info.extra - 24).tdiv 3) ∧
      (info.hsz ≠ 12 → info.bpp < 16 → ps = (int32 info.offset - info.extra - info.hsz) / 4) := by
    rw [paletteSize]
    split
    · rename_i h12
      split
      · rw [i32, if_pos (by omega), Outcome.bind_ok]
        exact ⟨_, rfl, fun _ _ => rfl, fun h => absurd h12 h⟩
      · exact ⟨_, rfl, fun _ _ => by omega, fun h => absurd h12 h⟩
    · rename_i h12
      split
      · rw [i32, if_pos (by omega), Outcome.bind_ok]
        exact ⟨_, rfl, fun h => absurd h h12, fun _ _ => rfl⟩
      · exact ⟨_, rfl, fun h => absurd h h12, fun _ _ => by omega⟩
  obtain ⟨ps, hp0, hp1, hp2⟩ := hp
  rw [hp0]
  simp only [Outcome.bind_ok]
  split
  · exact .inr (.inr rfl)
  generalize hn : (if info.bpp = 24 ∧ info.ma = 0xff000000 then 3 else if info.ma ≠ 0 then 4 else 3) = n
  have hn' : n = 3 ∨ n = 4 := by rw [← hn]; split <;> [skip; split] <;> simp
  have hn34 : n = if (n == 4) = true then 4 else 3 := by rcases hn' with h | h <;> simp [h]
  split
  · exact .inr (.inl ⟨_, rfl⟩)
  rename_i hsz
  split
  · exact .inr (.inl ⟨_, rfl⟩)
  rename_i hroom
  have key : Safe (fun p : Px => p.out.size = n * info.x * (int32 info.y).natAbs)
      (if info.bpp < 16 then bmpIndexed info ps (n == 4) (int32 info.y).natAbs (fresh (n * info.x * (int32 info.y).natAbs)) r.src
       else bmpDirect info (n == 4) (int32 info.y).natAbs (fresh (n * info.x * (int32 info.y).natAbs)) r.src) := by
    split
    · rename_i hb
      rw [bmpIndexed]
      split
      · exact .inr (.inl ⟨_, rfl⟩)
      · rename_i hps
        simp only
        rw [i32, if_pos (by omega), Outcome.bind_ok, i32, if_pos (by
          by_cases h12 : info.hsz = 12
          · rw [if_pos h12, h12]
            have e := hp1 h12 hb
            have := Int.tdiv_mul_add_tmod (int32 info.offset - info.extra - 24) 3
            rw [← e] at this
            have h1 := Int.tmod_lt_of_pos (int32 info.offset - info.extra - 24) (show (0 : Int) < 3 by omega)
            have h2 := Int.lt_tmod_of_pos (int32 info.offset - info.extra - 24) (show (0 : Int) < 3 by omega)
            constructor <;> omega
          · rw [if_neg h12]
            have e := hp2 h12 hb
            constructor <;> omega)]
        simp only [Outcome.bind_ok]
        split
        · exact .inl (keeps_rows (keeps_pal1 hn34) rfl rfl)
        · split
          · exact .inl (keeps_rows (keeps_pal hn34 (.inl rfl)) rfl rfl)
          · split
            · exact .inl (keeps_rows (keeps_pal hn34 (.inr rfl)) rfl rfl)
            · exact .inr (.inl ⟨_, rfl⟩)
    · rename_i hb
      rw [bmpDirect, i32, if_pos (by omega)]
      simp only [Outcome.bind_ok]
      split
      · exact .inl (keeps_rows (keeps_loop (keeps_easy hn34)) rfl rfl)
      · rename_i h24
        split
        · exact .inl (keeps_rows (keeps_loop (keeps_easy hn34)) rfl rfl)
        · split
          · exact .inr (.inl ⟨_, rfl⟩)
          · rename_i h0
            exact .inl (keeps_rows (keeps_loop (keeps_mask hn34 (by omega) (hm (by omega) h24))) rfl rfl)
  rcases key with ⟨p, k1, k2⟩ | ⟨e, k1⟩ | k1
  · rw [k1, Outcome.bind_ok]
    obtain ⟨m1, e0, e1⟩ : ∃ m1, (if n = 4 ∧ p.allA = 0 then opaqueRows (info.x * (int32 info.y).natAbs) p.out else .ok p.out) = .ok m1 ∧
        m1.size = n * info.x * (int32 info.y).natAbs := by
      split
      · rename_i hc
        obtain ⟨m', g0, g1, _⟩ := opaqueRows_ok (n := info.x * (int32 info.y).natAbs) (m := p.out) (by rw [k2, hc.1]; ring)
        exact ⟨m', g0, by omega⟩
      · exact ⟨_, rfl, k2⟩
    rw [e0, Outcome.bind_ok]
    obtain ⟨m2, f0, f1⟩ : ∃ m2, (if 0 < int32 info.y then flipRows (info.x * n) (int32 info.y).natAbs m1 else .ok m1) = .ok m2 ∧
        m2.size = n * info.x * (int32 info.y).natAbs := by
      split
      · obtain ⟨m', g0, g1, _⟩ := flipRows_ok (w := info.x * n) (y := (int32 info.y).natAbs) (m := m1) (by rw [e1]; ring)
        exact ⟨m', g0, by omega⟩
      · exact ⟨_, rfl, e1⟩
    rw [f0, Outcome.bind_ok]
    refine .inl ⟨_, rfl, f1, ?_, ?_⟩
    · simp only; omega
    · simp only; omega
  · rw [k1]; exact .inr (.inl ⟨_, rfl⟩)
  · rw [k1]; exact .inr (.inr rfl)

end Verif.Png
