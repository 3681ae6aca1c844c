import Verif.Png.PropsTga

/-! # C160: any file read as a TGA picture -/

namespace Verif.Png

/-- what reading any file comes to -/
theorem tga_any (room : Nat) (file : List UInt8) :
    ((∃ e, loadTga room file = .throws e) ∨
      ∃ i, loadTga room file = .ok i ∧ i.x = le16 file 12 ∧ i.y = le16 file 14 ∧ 0 < i.n ∧ i.n ≤ 4 ∧ i.out.size = i.x * i.y * i.n) ∧
      ¬(tgaTest (start file) = true ∧ byteAt file 1 = 1 ∧ le16 file 5 = 0 ∧ le16 file 12 * le16 file 14 * channels (byteAt file 7).toNat false < 2 ^ 31 ∧
        le16 file 12 * le16 file 14 * channels (byteAt file 7).toNat false ≤ room) ∨
    (loadTga room file = .ub ∧ tgaTest (start file) = true ∧ byteAt file 1 = 1 ∧ le16 file 5 = 0 ∧
      le16 file 12 * le16 file 14 * channels (byteAt file 7).toNat false < 2 ^ 31 ∧
      le16 file 12 * le16 file 14 * channels (byteAt file 7).toNat false ≤ room) := by
  by_cases htest : tgaTest (start file) = true
  swap
  · left
    refine ⟨.inl ⟨_, by rw [loadTga, if_neg htest]⟩, fun h => htest h.1⟩
  have ht := (tgaTest_of file).1 htest
  obtain ⟨s, hs, hl⟩ := tgaLoad_of file
  have hch : ∀ bits grey, channels bits grey ≤ 4 := fun bits grey => by
    rw [channels]
    split_ifs <;> omega
  have hpos : 0 < (tgaOf file).w * (tgaOf file).h := Nat.mul_pos ht.2.1 ht.2.2.1
  rcases ht with ⟨⟨hm, htype⟩ | ⟨hm, htype, hpd, hb⟩, hw0, hh0, hd⟩
  · -- no palette
    left
    refine ⟨?_, fun h => by rw [h.2.1] at hm; exact absurd hm (by decide)⟩
    obtain ⟨t1, t2, t3⟩ := tgaOf_plain hm htype
    obtain ⟨rgb16, kd⟩ := kind_of (grey := greyFile file) hd
    rw [loadTga, if_pos htest, hl room _ rgb16 (by rw [t1, if_neg (by decide), t2]; exact kd.comp), tgaBody, if_neg (by have := kd.some; omega)]
    by_cases h1 : 2 ^ 31 ≤ (tgaOf file).w * (tgaOf file).h ∨ 2 ^ 31 ≤ (tgaOf file).w * (tgaOf file).h * channels (byteAt file 16).toNat (greyFile file)
    · exact .inl ⟨_, by rw [if_pos h1]⟩
    rw [if_neg h1]
    by_cases h2 : room < (tgaOf file).w * (tgaOf file).h * channels (byteAt file 16).toNat (greyFile file)
    · exact .inl ⟨_, by rw [if_pos h2]⟩
    rw [if_neg h2]
    right
    have : ∃ m, (if !(tgaOf file).indexed && !(tgaOf file).rle && !rgb16 then
          tgaDirect (tgaOf file) (channels (byteAt file 16).toNat (greyFile file)) (fresh ((tgaOf file).w * (tgaOf file).h * channels (byteAt file 16).toNat (greyFile file))) s
        else tgaCoded room (tgaOf file) (channels (byteAt file 16).toNat (greyFile file)) rgb16
          (fresh ((tgaOf file).w * (tgaOf file).h * channels (byteAt file 16).toNat (greyFile file))) s) = .ok m ∧
        m.size = (tgaOf file).w * (tgaOf file).h * channels (byteAt file 16).toNat (greyFile file) := by
      by_cases hdir : (!(tgaOf file).indexed && !(tgaOf file).rle && !rgb16) = true
      · rw [if_pos hdir]
        obtain ⟨m, a1, a2, _⟩ := tgaDirect_ok (t := tgaOf file) (n := channels (byteAt file 16).toNat (greyFile file)) hs
        exact ⟨m, a1, a2⟩
      · rw [if_neg hdir, tgaCoded, if_neg (by rw [t1]; decide), Outcome.bind_ok]
        obtain ⟨ps, p1, p2⟩ := places_long file (if rgb16 then 2 else channels (byteAt file 16).toNat (greyFile file)) (tgaOf file).rle (18 + (byteAt file 0).toNat)
          ((tgaOf file).w * (tgaOf file).h)
        obtain ⟨m, a1, a2, _⟩ := coded_ok (reads_plain t1) hs p1 p2
        exact ⟨m, a1, a2⟩
    obtain ⟨m, a1, a2⟩ := this
    obtain ⟨m', b1, b2, _⟩ := tgaFinish_ok (t := tgaOf file) (rgb16 := rgb16) (m := m) a2
    rw [a1, Outcome.bind_ok, b1, Outcome.bind_ok]
    exact ⟨_, rfl, rfl, rfl, kd.some, hch _ _, b2⟩
  · -- a palette
    obtain ⟨t1, t3⟩ := tgaOf_pal hm htype
    obtain ⟨rgb16, kd⟩ := kind_of (grey := false) hpd
    rw [loadTga, if_pos htest, hl room _ rgb16 (by rw [t1, if_pos rfl]; exact kd.comp), tgaBody, if_neg (by have := kd.some; omega)]
    have hle : (tgaOf file).w * (tgaOf file).h ≤ (tgaOf file).w * (tgaOf file).h * channels (byteAt file 7).toNat false := Nat.le_mul_of_pos_right _ kd.some
    by_cases h1 : 2 ^ 31 ≤ (tgaOf file).w * (tgaOf file).h ∨ 2 ^ 31 ≤ (tgaOf file).w * (tgaOf file).h * channels (byteAt file 7).toNat false
    · left
      refine ⟨.inl ⟨_, by rw [if_pos h1]⟩, fun h => ?_⟩
      have : (tgaOf file).w * (tgaOf file).h * channels (byteAt file 7).toNat false < 2 ^ 31 := h.2.2.2.1
      omega
    rw [if_neg h1]
    by_cases h2 : room < (tgaOf file).w * (tgaOf file).h * channels (byteAt file 7).toNat false
    · left
      refine ⟨.inl ⟨_, by rw [if_pos h2]⟩, fun h => ?_⟩
      have : (tgaOf file).w * (tgaOf file).h * channels (byteAt file 7).toNat false ≤ room := h.2.2.2.2
      omega
    rw [if_neg h2]
    by_cases hl0 : le16 file 5 = 0
    · right
      rw [pal_empty t1 hl0 kd.some hpos]
      refine ⟨rfl, htest, hm, hl0, ?_, ?_⟩
      · have : (tgaOf file).w * (tgaOf file).h * channels (byteAt file 7).toNat false < 2 ^ 31 := by omega
        exact this
      · have : (tgaOf file).w * (tgaOf file).h * channels (byteAt file 7).toNat false ≤ room := by omega
        exact this
    · left
      refine ⟨?_, fun h => hl0 h.2.2.1⟩
      have hst : (tgaOf file).palStart < 2 ^ 31 := by
        have := le16_lt file 3
        show le16 file 3 < _
        omega
      have hdir : (!(tgaOf file).indexed && !(tgaOf file).rle && !rgb16) = false := by rw [t1]; rfl
      by_cases hroom : room < (tgaOf file).palLen * channels (byteAt file 7).toNat false
      · left
        rw [hdir, if_neg (by decide), tgaCoded, if_pos t1]
        simp only [tgaPalette]
        rw [if_pos hroom]
        exact ⟨_, rfl⟩
      · by_cases hcut : rgb16 = false ∧ file.length < 18 + (byteAt file 0).toNat + (tgaOf file).palStart + (tgaOf file).palLen * channels (byteAt file 7).toNat false
        · left
          rw [hdir, if_neg (by decide), tgaCoded, if_pos t1]
          simp only [tgaPalette]
          rw [if_neg hroom, hcut.1, if_neg (by decide)]
          have hk : (skip s (tgaOf file).palStart).all = file.drop (18 + (byteAt file 0).toNat + (tgaOf file).palStart) := by
            rw [skip_drop hst, hs, List.drop_drop]
          have h0 : 0 < (tgaOf file).palLen * channels (byteAt file 7).toNat false := Nat.mul_pos (Nat.pos_of_ne_zero hl0) kd.some
          rw [getn_none (by rw [hk, List.length_drop]; omega)]
          exact ⟨_, rfl⟩
        · right
          obtain ⟨ps, p1, p2⟩ := places_long file (if (tgaOf file).bpp = 8 then 1 else 2) (tgaOf file).rle
            (18 + (byteAt file 0).toNat + (tgaOf file).palStart + (tgaOf file).palLen * (if rgb16 then 2 else channels (byteAt file 7).toNat false))
            ((tgaOf file).w * (tgaOf file).h)
          obtain ⟨m, a1, a2, _⟩ := pal_ok (room := room) (n := channels (byteAt file 7).toNat false) (rgb16 := rgb16) t1 (Nat.pos_of_ne_zero hl0) hs hst (by omega) kd.three
            (fun h => by
              by_contra hh
              exact hcut ⟨h, by omega⟩) p1 p2
          obtain ⟨m', b1, b2, _⟩ := tgaFinish_ok (t := tgaOf file) (rgb16 := rgb16) (m := m) a2
          rw [a1, Outcome.bind_ok, b1, Outcome.bind_ok]
          exact ⟨_, rfl, rfl, rfl, kd.some, hch _ _, b2⟩

/-- **C160** (what holds) Whatever is in a file, reading it as a TGA picture ends: with an error, or with a picture of the width and height that the file says and one to
four channels, unless the file says that it has a palette and that the palette has no entries. -/
theorem C160_any_partial (room : Nat) (file : List UInt8) (hp : byteAt file 1 = 0 ∨ 0 < le16 file 5) :
    (∃ e, loadTga room file = .throws e) ∨
      ∃ i, loadTga room file = .ok i ∧ i.x = le16 file 12 ∧ i.y = le16 file 14 ∧ 0 < i.n ∧ i.n ≤ 4 ∧ i.out.size = i.x * i.y * i.n := by
  rcases tga_any room file with h | h
  · exact h.1
  · rcases hp with hp | hp
    · have := h.2.2.1
      rw [hp] at this
      exact absurd this (by decide)
    · have := h.2.2.2.1
      omega

example : (∃ e, loadTga 10 [0, 0, 2] = .throws e) ∨ ∃ i, loadTga 10 [0, 0, 2] = .ok i ∧ i.x = 0 ∧ i.y = 0 ∧ 0 < i.n ∧ i.n ≤ 4 ∧ i.out.size = i.x * i.y * i.n :=
  C160_any_partial 10 [0, 0, 2] (.inl (by decide))

/-- **C160** (what does not hold) Reading has no defined result exactly if the file says that it has a palette, that the palette has no entries, and all else in the header
is as it should be: the first entry of a palette without entries is read. -/
theorem C160_empty_fails (room : Nat) (file : List UInt8) : loadTga room file = .ub ↔
    byteAt file 1 = 1 ∧ le16 file 5 = 0 ∧ (byteAt file 2 = 1 ∨ byteAt file 2 = 9) ∧ (byteAt file 7).toNat ∈ [8, 15, 16, 24, 32] ∧
      (byteAt file 16 = 8 ∨ byteAt file 16 = 16) ∧ 0 < le16 file 12 ∧ 0 < le16 file 14 ∧
      le16 file 12 * le16 file 14 * channels (byteAt file 7).toNat false < 2 ^ 31 ∧ le16 file 12 * le16 file 14 * channels (byteAt file 7).toNat false ≤ room := by
  have hdep : ∀ b, tgaDepth b = true ↔ b ∈ [8, 15, 16, 24, 32] := fun b => by
    simp only [tgaDepth, Bool.or_eq_true, beq_iff_eq, List.mem_cons, List.not_mem_nil, or_false]
    omega
  constructor
  · intro h
    rcases tga_any room file with ⟨h' | h', _⟩ | h'
    · obtain ⟨e, h'⟩ := h'
      rw [h'] at h; cases h
    · obtain ⟨i, h', _⟩ := h'
      rw [h'] at h; cases h
    · obtain ⟨_, h1, h2, h3, h4, h5⟩ := h'
      have ht := (tgaTest_of file).1 h1
      rcases ht with ⟨⟨hm, _⟩ | ⟨_, htype, hpd, hb⟩, hw0, hh0, _⟩
      · rw [h2] at hm; exact absurd hm (by decide)
      · exact ⟨h2, h3, htype, (hdep _).1 hpd, hb, hw0, hh0, h4, h5⟩
  · rintro ⟨h2, h3, htype, hpd, hb, hw0, hh0, h4, h5⟩
    have htest : tgaTest (start file) = true := (tgaTest_of file).2
      ⟨.inr ⟨h2, htype, (hdep _).2 hpd, hb⟩, hw0, hh0, by rcases hb with h | h <;> rw [h] <;> decide⟩
    rcases tga_any room file with ⟨_, h'⟩ | h'
    · exact absurd ⟨htest, h2, h3, h4, h5⟩ h'
    · exact h'.1

/-- a picture of one pixel by a palette of no colours -/
def noneTga : List UInt8 := [0, 1, 1, 0, 0, 0, 0, 24, 0, 0, 0, 0, 1, 0, 1, 0, 8, 0, 0]

example : loadTga 100 noneTga = .ub := (C160_empty_fails 100 noneTga).2 (by decide)

/-- **C160** (what does not hold) A file that has been cut off is not refused: if there is nothing behind the header of a file whose pixels are stored as they are, with 8, 24 or 32
bits each, there is a picture of the right size no sample of which has been set. -/
theorem C160_cut_fails (room w h : Nat) (file : List UInt8) (hm : byteAt file 1 = 0) (ht : byteAt file 2 = 2 ∨ byteAt file 2 = 3)
    (hd : (byteAt file 16).toNat ∈ [8, 24, 32]) (hw : le16 file 12 = w) (hh : le16 file 14 = h) (hw0 : 0 < w) (hh0 : 0 < h)
    (hsize : w * h * channels (byteAt file 16).toNat (greyFile file) < 2 ^ 31) (hroom : w * h * channels (byteAt file 16).toNat (greyFile file) ≤ room)
    (hend : file.length ≤ 18) :
    ∃ i, loadTga room file = .ok i ∧ i.x = w ∧ i.y = h ∧ i.out.size = w * h * i.n ∧ 0 < i.n ∧
      ∀ Y < h, ∀ X < w, ∀ c < i.n, load i.out ((Y * w + X) * i.n + c) = .ub := by
  subst hw hh
  have hd' : tgaDepth (byteAt file 16).toNat = true := by
    simp only [List.mem_cons, List.not_mem_nil, or_false] at hd
    simp only [tgaDepth, Bool.or_eq_true, beq_iff_eq]
    omega
  have ht' : byteAt file 2 = 2 ∨ byteAt file 2 = 3 ∨ byteAt file 2 = 10 ∨ byteAt file 2 = 11 := by
    rcases ht with h | h
    · exact .inl h
    · exact .inr (.inl h)
  obtain ⟨t1, t2, t3⟩ := tgaOf_plain hm ht'
  have hr : (tgaOf file).rle = false := by
    rw [t3]
    rcases ht with h | h <;> rw [h] <;> decide
  have hcomp : tgaComp (byteAt file 16).toNat (greyFile file) = (channels (byteAt file 16).toNat (greyFile file), false) := by
    simp only [List.mem_cons, List.not_mem_nil, or_false] at hd
    rcases hd with h | h | h <;> rw [h] <;> cases greyFile file <;> rfl
  obtain ⟨rgb16, kd⟩ := kind_of (grey := greyFile file) hd'
  have hn := kd.some
  rw [loadTga, if_pos ((tgaTest_of file).2 ⟨.inl ⟨hm, ht'⟩, hw0, hh0, hd'⟩)]
  obtain ⟨s, hs, hl⟩ := tgaLoad_of file
  rw [hl room _ false (by rw [t1, if_neg (by decide), t2]; exact hcomp)]
  have hle : (tgaOf file).w * (tgaOf file).h ≤ (tgaOf file).w * (tgaOf file).h * channels (byteAt file 16).toNat (greyFile file) := Nat.le_mul_of_pos_right _ hn
  have hsize' : (tgaOf file).w * (tgaOf file).h * channels (byteAt file 16).toNat (greyFile file) < 2 ^ 31 := hsize
  have hroom' : (tgaOf file).w * (tgaOf file).h * channels (byteAt file 16).toNat (greyFile file) ≤ room := hroom
  rw [tgaBody, if_neg (by omega), if_neg (by omega), if_neg (by omega), if_pos (by rw [t1, hr]; rfl)]
  obtain ⟨m, a1, a2, a3⟩ := tgaDirect_ok (t := tgaOf file) (n := channels (byteAt file 16).toNat (greyFile file)) hs
  rw [a1, Outcome.bind_ok]
  obtain ⟨m', b1, b2, b3⟩ := tgaFinish_ok (t := tgaOf file) (rgb16 := false) (m := m) a2
  rw [b1, Outcome.bind_ok]
  refine ⟨_, rfl, rfl, rfl, b2, hn, fun Y hY X hX c hc => ?_⟩
  have hlt := pixel_lt hY hX
  simp only at hc ⊢
  refine load_none ?_ ?_
  · have : (Y * le16 file 12 + X + 1) * channels (byteAt file 16).toNat (greyFile file) ≤
        le16 file 12 * le16 file 14 * channels (byteAt file 16).toNat (greyFile file) := Nat.mul_le_mul_right _ hlt
    rw [Nat.add_mul, Nat.one_mul] at this
    have : m'.size = le16 file 12 * le16 file 14 * channels (byteAt file 16).toNat (greyFile file) := b2
    omega
  · rw [b3 _ hlt c hc]
    generalize hc' : (if 3 ≤ channels (byteAt file 16).toNat (greyFile file) ∧ false = false then swapped (channels (byteAt file 16).toNat (greyFile file)) c else c) = c'
    have hlt' : c' < channels (byteAt file 16).toNat (greyFile file) := by
      rw [← hc']
      split
      · exact swapped_lt hc
      · exact hc
    have hXc : X * channels (byteAt file 16).toNat (greyFile file) + c' < (tgaOf file).w * channels (byteAt file 16).toNat (greyFile file) := by
      have : (X + 1) * channels (byteAt file 16).toNat (greyFile file) ≤ (tgaOf file).w * channels (byteAt file 16).toNat (greyFile file) :=
        Nat.mul_le_mul_right _ hX
      rw [Nat.add_mul, Nat.one_mul] at this
      omega
    have := a3 Y hY _ hXc
    rw [show (Y * le16 file 12 + X) * channels (byteAt file 16).toNat (greyFile file) + c' =
      Y * ((tgaOf file).w * channels (byteAt file 16).toNat (greyFile file)) + (X * channels (byteAt file 16).toNat (greyFile file) + c') by
        show _ = Y * (le16 file 12 * _) + _
        ring, this, List.getElem?_eq_none (by omega)]

example : ∃ i, loadTga 100 (twoTga.take 18) = .ok i ∧ i.x = 1 ∧ i.y = 2 ∧ i.out.size = 1 * 2 * i.n ∧ 0 < i.n ∧
    ∀ Y < 2, ∀ X < 1, ∀ c < i.n, load i.out ((Y * 1 + X) * i.n + c) = .ub :=
  C160_cut_fails 100 1 2 (twoTga.take 18) (by decide) (by decide) (by decide) (by decide) (by decide) (by decide) (by decide) (by decide) (by decide) (by decide)

/-- one pixel, the entry 1 of a palette whose first entry is 1: blue 10, green 20, red 30 -/
def firstTga : List UInt8 := [0, 1, 1, 1, 0, 1, 0, 24, 0, 0, 0, 0, 1, 0, 1, 0, 8, 0, 10, 20, 30, 1]

/-- the first sample of a picture -/
def firstSample (o : Outcome Image) : Outcome UInt8 := o >>= fun i => load i.out 0

set_option maxRecDepth 20000 in
/-- **C160** (what does not hold) A palette that does not begin with entry 0 is not read as the format has it: of the file that gives the colours from entry 1 on and whose
pixel is that entry, with red 30, the picture has red 1. The number of the first entry is taken for a number of bytes to be left out. -/
theorem C160_first_fails : ∃ file, byteAt file 1 = 1 ∧ byteAt file 2 = 1 ∧ le16 file 3 = 1 ∧ byteAt file 21 = 1 ∧ byteAt file 20 = 30 ∧
    firstSample (loadTga 100 file) = .ok 1 :=
  ⟨firstTga, by decide, by decide, by decide, by decide, by decide, by decide +kernel⟩

/-- **C160** (what does not hold) That a file gives its columns from the right to the left, bit 4 of byte 17, is not looked at: the first column of the picture is the pixel that comes
first in the file, for every width. -/
theorem C160_columns_fails (room w : Nat) (file : List UInt8) (hm : byteAt file 1 = 0) (ht : byteAt file 2 = 3) (hd : byteAt file 16 = 8)
    (hw : le16 file 12 = w) (hh : le16 file 14 = 1) (hw0 : 0 < w) (hroom : w ≤ room) (_hside : (byteAt file 17).toNat / 16 % 2 = 1)
    (hf : 18 + (byteAt file 0).toNat + w ≤ file.length) :
    ∃ i, loadTga room file = .ok i ∧ i.x = w ∧ i.y = 1 ∧ load i.out 0 = .ok (file.getD (18 + (byteAt file 0).toNat) 0) := by
  have hc : channels (byteAt file 16).toNat (greyFile file) = 1 := by
    rw [hd]; rfl
  have hlt := le16_lt file 12
  obtain ⟨i, a1, a2, a3, a4, _, a6⟩ := C160_read room w 1 file hm (.inr ht) (by rw [hd]; decide) hw hh hw0 (by decide) (by rw [hc]; omega) (by rw [hc]; omega)
    (by rw [hd]; show _ + w * 1 * 1 ≤ _; omega)
  refine ⟨i, a1, a2, a3, ?_⟩
  have := a6 0 (by decide) 0 hw0 0 (by rw [a4, hc]; decide)
  rw [hd] at this
  simpa [colour] using this

example : ∃ i, loadTga 100 [0, 0, 3, 0, 0, 0, 0, 0, 0, 0, 0, 0, 2, 0, 1, 0, 8, 48, 5, 6] = .ok i ∧ i.x = 2 ∧ i.y = 1 ∧ load i.out 0 = .ok 5 :=
  C160_columns_fails 100 2 _ (by decide) (by decide) (by decide) (by decide) (by decide) (by decide) (by decide) (by decide) (by decide)

end Verif.Png
