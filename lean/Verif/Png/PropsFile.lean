import Verif.Png.File

/-! # Properties of reading PNG files -/

namespace Verif.Png

/-! ## C146: files -/

theorem sample_at {m : Buf} {q v : Nat} (h : sampleAt m 8 q = .ok v) : m.at_ q = some (UInt8.ofNat v) ∧ v < 256 := by
  obtain ⟨b, hb1, hb2⟩ := sample8 (by decide) h
  rw [load] at hb1
  split at hb1
  · split at hb1
    · rename_i w hw
      cases hb1
      refine ⟨?_, by have := b.toNat_lt; omega⟩
      rw [hw, ← hb2]
      simp
    · cases hb1
  · cases hb1

theorem inflates_ne {lax : Bool} {z raw : List UInt8} (h : Inflate.Inflates lax true z raw) : z ≠ [] := by
  rintro rfl
  rw [Inflate.Inflates, if_pos rfl] at h
  exact absurd h.1.1 (by decide)

/-- **C146** (what holds) A PNG file is read as the picture it stands for: with any compression, any filters, interlaced or not, in any number of
pieces, with or without a palette and a colour that is transparent, whatever chunks that may be left out of account are between and whatever is
behind the end.  The channels are grey or red, green and blue, and alpha if the file has it or something is transparent. -/
theorem C146_decodes (p : Picture) (z raw file : List UInt8) (px : Nat → Nat → Nat → Nat) (lax : Bool) (hf : IsPng p z file) (hp : p.Allowed)
    (hW : p.W ≤ 2 ^ 24) (hH : p.H ≤ 2 ^ 24) (hpix : p.W * p.H ≤ 2 ^ 26) (hz : z.length ≤ 2 ^ 30) (hi : Inflate.Inflates lax true z raw)
    (hraw : raw.length ≤ 2 ^ 30) (hpx : Pixels p.interlaced p.chan p.d p.W p.H px raw)
    (hidx : p.color = 3 → ∀ Y < p.H, ∀ X < p.W, px Y X 0 < (p.entries.getD []).length) :
    ∃ n₀, ∀ rounds room, n₀ ≤ rounds → 2 ^ 31 ≤ room →
      ∃ m, loadPng rounds room file = .ok ⟨p.W, p.H, p.channels, 8, m⟩ ∧ m.size = p.W * p.H * p.channels ∧
        ∀ Y < p.H, ∀ X < p.W, ∀ c < p.channels, p.byte (px Y X) c < 256 ∧
          m.at_ ((Y * p.W + X) * p.channels + c) = some (UInt8.ofNat (p.byte (px Y X) c)) := by
  obtain ⟨K, hK⟩ := reads hf hp hW hH (by omega) hz (inflates_ne hi)
  obtain ⟨n₀, hn⟩ := finished hp hW hH hpix hi hraw hpx hidx
  refine ⟨K + n₀, fun rounds room hr hroom => ?_⟩
  obtain ⟨st, h1, h2, h3, h4⟩ := hK rounds room (by omega) hroom
  obtain ⟨m, g1, g2, g3⟩ := hn rounds room st (by omega) hroom h1 h2 h3
  rw [h4, g1, Outcome.bind_ok]
  simp only
  have hch : p.channels ≤ 5 := by
    rw [Picture.channels, Picture.chan]
    split <;> split <;> first | omega | (split <;> omega)
  have hsz : p.W * p.H * p.channels ≤ 2 ^ 26 * 5 := Nat.mul_le_mul hpix hch
  by_cases h16 : p.d = 16
  · rw [if_pos h16]
    have hall := flat_all g3
    rw [h16] at hall g3
    obtain ⟨m', e1, e2, e3⟩ := convert16_ok (room := room) (i := ⟨p.W, p.H, p.channels, p.d, m⟩) (by show p.W * p.H * p.channels ≤ room; omega) hall
      (fun q hq => sample16_lt (hall q hq))
    refine ⟨m', e1, e2, fun Y hY X hX c hc => ?_⟩
    have hplace := place_lt hY hX
    have hlt : (Y * p.W + X) * p.channels + c < p.W * p.H * p.channels := by
      have := lt_of_row (stride := p.channels) hplace
      rw [Nat.mul_comm p.channels, Nat.mul_comm p.channels] at this
      omega
    have := sample_at (e3 _ hlt)
    rw [flat_at (fun Y X => p.value (px Y X)) hX hc] at this
    rw [Picture.byte, if_pos h16]
    exact ⟨this.2, this.1⟩
  · rw [if_neg h16]
    rw [if_neg h16, Nat.mul_one] at g2
    refine ⟨m, rfl, g2, fun Y hY X hX c hc => ?_⟩
    have h := g3 Y hY X hX c hc
    rw [sampleAt, if_neg h16] at h
    have := sample_at (m := m) (q := (Y * p.W + X) * p.channels + c) (v := p.value (px Y X) c) (by rw [sampleAt, if_neg (by decide)]; exact h)
    rw [Picture.byte, if_neg h16]
    exact ⟨this.2, this.1⟩

/-- a chunk with a check of zeroes -/
def mk (a b c d : Char) (data : List UInt8) : Chunk := ⟨letters a b c d, data, [0, 0, 0, 0]⟩

/-- some bytes compressed as they are -/
def stored (raw : List UInt8) : List UInt8 :=
  [0x78, 0x01, 0x01, UInt8.ofNat raw.length, UInt8.ofNat (raw.length / 256), UInt8.ofNat (255 - raw.length), UInt8.ofNat (255 - raw.length / 256)] ++ raw

/-- two pixels of 1 bit with a palette of two entries, the first of which is half transparent -/
def tiny : Picture := ⟨2, 1, 1, 3, false, some [(1, 2, 3), (250, 251, 252)], some [128]⟩

/-- the file, with a comment before the palette, the compressed data in three pieces, one of which is empty, and something behind the end -/
def tinyFile : List UInt8 :=
  sig ++ ([mk 'I' 'H' 'D' 'R' tiny.ihdr, mk 't' 'E' 'X' 't' [65, 0, 66], mk 'P' 'L' 'T' 'E' [1, 2, 3, 250, 251, 252], mk 't' 'R' 'N' 'S' [128],
    mk 'I' 'D' 'A' 'T' [], mk 'I' 'D' 'A' 'T' ((stored [0, 0x40]).take 4), mk 'I' 'D' 'A' 'T' ((stored [0, 0x40]).drop 4),
    mk 'I' 'E' 'N' 'D' []].flatMap Chunk.bytes) ++ [1, 2, 3]

theorem tiny_png : IsPng tiny (stored [0, 0x40]) tinyFile :=
  ⟨mk 'I' 'H' 'D' 'R' tiny.ihdr, mk 'I' 'E' 'N' 'D' [], [mk 't' 'E' 'X' 't' [65, 0, 66]], [mk 'P' 'L' 'T' 'E' [1, 2, 3, 250, 251, 252]], [],
    [mk 't' 'R' 'N' 'S' [128]], [], [mk 'I' 'D' 'A' 'T' [], mk 'I' 'D' 'A' 'T' ((stored [0, 0x40]).take 4), mk 'I' 'D' 'A' 'T' ((stored [0, 0x40]).drop 4)],
    [], [1, 2, 3], rfl, by simp only [Chunk.Fine]; decide, by simp only [Chunk.Extra]; decide, ⟨rfl, rfl⟩, ⟨_, rfl, rfl, rfl⟩, ⟨_, rfl, rfl, rfl⟩, by decide, by decide, rfl⟩

theorem tiny_allowed : tiny.Allowed :=
  ⟨by decide, by decide, fun e h => by cases h; decide, fun _ => rfl, fun k h => by cases h; decide⟩

theorem tiny_inflates : Inflate.Inflates true true (stored [0, 0x40]) [0, 0x40] :=
  (Inflate.C142_malloc_iff true 100 2 (by decide) (by decide) (by decide) _ _ (by decide) (by decide)).mp ⟨20, by decide +kernel⟩

theorem tiny_pixels : Pixels tiny.interlaced tiny.chan tiny.d tiny.W tiny.H (fun _ X _ => X) [0, 0x40] := by
  refine ⟨fun _ _ => 0x40, ?_, by decide⟩
  intro j hj
  match j, hj with
  | 0, _ => exact ⟨0, by decide, rfl, by decide⟩

example : ∃ n₀, ∀ rounds room, n₀ ≤ rounds → 2 ^ 31 ≤ room → ∃ m, loadPng rounds room tinyFile = .ok ⟨2, 1, 4, 8, m⟩ ∧
    (List.range 8).map m.at_ = [some 1, some 2, some 3, some 128, some 250, some 251, some 252, some 255] := by
  obtain ⟨n₀, h⟩ := C146_decodes tiny _ _ tinyFile _ true tiny_png tiny_allowed (by decide) (by decide) (by decide) (by decide) tiny_inflates (by decide) tiny_pixels
    (by decide)
  refine ⟨n₀, fun rounds room hr hroom => ?_⟩
  obtain ⟨m, h1, _, h2⟩ := h rounds room hr hroom
  refine ⟨m, h1, ?_⟩
  have := fun X hX c hc => (h2 0 (by decide) X hX c hc).2
  have a0 := this 0 (by decide) 0 (by decide)
  have a1 := this 0 (by decide) 1 (by decide)
  have a2 := this 0 (by decide) 2 (by decide)
  have a3 := this 0 (by decide) 3 (by decide)
  have a4 := this 1 (by decide) 0 (by decide)
  have a5 := this 1 (by decide) 1 (by decide)
  have a6 := this 1 (by decide) 2 (by decide)
  have a7 := this 1 (by decide) 3 (by decide)
  show [m.at_ 0, m.at_ 1, m.at_ 2, m.at_ 3, m.at_ 4, m.at_ 5, m.at_ 6, m.at_ 7] = _
  rw [show m.at_ 0 = _ from a0, show m.at_ 1 = _ from a1, show m.at_ 2 = _ from a2, show m.at_ 3 = _ from a3, show m.at_ 4 = _ from a4,
    show m.at_ 5 = _ from a5, show m.at_ 6 = _ from a6, show m.at_ 7 = _ from a7]
  decide

/-- the bytes of what is read -/
def bytesOf (o : Outcome Image) : Outcome (List (Option UInt8)) := o >>= fun i => .ok ((List.range (i.x * i.y * i.n)).map i.out.at_)

/-- two grey pixels of 16 bits, the second of which is transparent -/
example : bytesOf (loadPng 100 (2 ^ 31) (sig ++ ([mk 'I' 'H' 'D' 'R' (be32 2 ++ be32 1 ++ [16, 0, 0, 0, 0]), mk 't' 'R' 'N' 'S' [0xAB, 0xCD],
    mk 'I' 'D' 'A' 'T' (stored [0, 0xAB, 0xCC, 0xAB, 0xCD]), mk 'I' 'E' 'N' 'D' []].flatMap Chunk.bytes))) = .ok [some 0xAB, some 255, some 0xAB, some 0] := by
  decide +kernel

/-- **C146** (what does not hold) The checks of the chunks are not looked at: a file with one of them changed is read as well. -/
theorem C146_crc_fails : ∃ a b crc crc', crc ≠ crc' ∧ crc.length = 4 ∧ crc'.length = 4 ∧ ∃ bytes,
    bytesOf (loadPng 100 (2 ^ 31) (a ++ crc ++ b)) = .ok bytes ∧ bytesOf (loadPng 100 (2 ^ 31) (a ++ crc' ++ b)) = .ok bytes :=
  ⟨tinyFile.take 29, tinyFile.drop 33, [0, 0, 0, 0], [1, 2, 3, 4], by decide, rfl, rfl,
    [some 1, some 2, some 3, some 128, some 250, some 251, some 252, some 255], by decide +kernel, by decide +kernel⟩

/-- one pixel of 8 bits with a palette, where the index and the palette are given -/
def indexed (i : UInt8) (plte : List UInt8) : List UInt8 :=
  sig ++ ([mk 'I' 'H' 'D' 'R' (be32 1 ++ be32 1 ++ [8, 3, 0, 0, 0]), mk 'P' 'L' 'T' 'E' plte, mk 'I' 'D' 'A' 'T' (stored [0, i]),
    mk 'I' 'E' 'N' 'D' []].flatMap Chunk.bytes)

/-- **C146** (what does not hold) A pixel whose index is not less than the number of entries of the palette is not refused: the bytes given back for it
are whatever was in the memory. -/
theorem C146_index_fails : ∃ file, bytesOf (loadPng 100 (2 ^ 31) file) = .ok [none, none, none] := ⟨indexed 1 [7, 8, 9], by decide +kernel⟩

example : bytesOf (loadPng 100 (2 ^ 31) (indexed 0 [7, 8, 9])) = .ok [some 7, some 8, some 9] := by decide +kernel

/-- one grey pixel, with something before the data -/
def odd (before : List UInt8) : List UInt8 :=
  sig ++ (mk 'I' 'H' 'D' 'R' (be32 1 ++ be32 1 ++ [8, 0, 0, 0, 0])).bytes ++ before ++
    ([mk 'I' 'D' 'A' 'T' (stored [0, 77]), mk 'I' 'E' 'N' 'D' []].flatMap Chunk.bytes)

/-- **C146** (what does not hold) The length of a chunk is not trusted to be less than 2^31, but if it is not, the chunk is not refused either: reading
goes on behind the first 128 bytes of the file (or the next multiple of 128), wherever that is in the chunk. -/
theorem C146_length_fails : ∃ before after : List UInt8, (before ++ after).length < 2 ^ 31 ∧
    bytesOf (loadPng 100 (2 ^ 31) (odd (be32 (2 ^ 31) ++ letters 't' 'E' 'X' 't' ++ before ++ after))) = .ok [some 77] ∧
    33 + 8 + before.length = 128 :=
  ⟨List.replicate 87 0, [0, 0, 0, 0], by decide, by decide +kernel, by decide⟩

example : bytesOf (loadPng 100 (2 ^ 31) (odd [])) = .ok [some 77] := by decide +kernel

/-- **C146** (what does not hold) Depths that PNG does not have are read: grey with alpha of 4 bits each is accepted, and grey is not spread over 0 to 255
then.  With red, green and blue of 4 bits an assertion fails. -/
theorem C146_depth_fails :
    bytesOf (loadPng 100 (2 ^ 31) (sig ++ ([mk 'I' 'H' 'D' 'R' (be32 1 ++ be32 1 ++ [4, 4, 0, 0, 0]), mk 'I' 'D' 'A' 'T' (stored [0, 0xF8]),
      mk 'I' 'E' 'N' 'D' []].flatMap Chunk.bytes))) = .ok [some 15, some 8] ∧
    bytesOf (loadPng 100 (2 ^ 31) (sig ++ ([mk 'I' 'H' 'D' 'R' (be32 1 ++ be32 1 ++ [4, 2, 0, 0, 0]), mk 'I' 'D' 'A' 'T' (stored [0, 1, 2]),
      mk 'I' 'E' 'N' 'D' []].flatMap Chunk.bytes))) = .assertFail := by
  constructor <;> decide +kernel

end Verif.Png
