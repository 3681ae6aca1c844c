import Verif.Png.TgaAll

/-! # C160: TGA pictures -/

namespace Verif.Png

/-- whether a file says that its pictures are grey -/
def greyFile (file : List UInt8) : Bool := byteAt file 2 == 3 || byteAt file 2 == 11

theorem tgaOf_plain {file : List UInt8} (hm : byteAt file 1 = 0) (ht : byteAt file 2 = 2 ∨ byteAt file 2 = 3 ∨ byteAt file 2 = 10 ∨ byteAt file 2 = 11) :
    (tgaOf file).indexed = false ∧ ((tgaOf file).type == 3) = greyFile file ∧ (tgaOf file).rle = decide (byteAt file 2 = 10 ∨ byteAt file 2 = 11) := by
  simp only [tgaOf, greyFile]
  rw [hm]
  rcases ht with h | h | h | h <;> rw [h] <;> decide

theorem tgaOf_pal {file : List UInt8} (hm : byteAt file 1 = 1) (ht : byteAt file 2 = 1 ∨ byteAt file 2 = 9) :
    (tgaOf file).indexed = true ∧ (tgaOf file).rle = decide (byteAt file 2 = 9) := by
  simp only [tgaOf]
  rw [hm]
  rcases ht with h | h <;> rw [h] <;> decide

/-- the row of the file that a row of the picture comes from -/
theorem tga_row (file : List UInt8) (Y : Nat) :
    (if (tgaOf file).inverted then (tgaOf file).h - 1 - Y else Y) = if (byteAt file 17).toNat / 32 % 2 = 0 then le16 file 14 - 1 - Y else Y := by
  by_cases h : (byteAt file 17).toNat / 32 % 2 = 0
  · rw [if_pos h, if_pos (by simp only [tgaOf, beq_iff_eq]; exact h)]; rfl
  · rw [if_neg h, if_neg (by simp only [tgaOf, beq_iff_eq]; exact h)]

/-- colours that are not by a palette -/
theorem tga_plain {room w h : Nat} {file : List UInt8} {ps : List Nat} (hm : byteAt file 1 = 0)
    (ht : byteAt file 2 = 2 ∨ byteAt file 2 = 3 ∨ byteAt file 2 = 10 ∨ byteAt file 2 = 11) (hd : tgaDepth (byteAt file 16).toNat = true)
    (hw : le16 file 12 = w) (hh : le16 file 14 = h) (hw0 : 0 < w) (hh0 : 0 < h)
    (hsize : w * h * channels (byteAt file 16).toNat (greyFile file) < 2 ^ 31) (hroom : w * h * channels (byteAt file 16).toNat (greyFile file) ≤ room)
    (hpl : Places file (((byteAt file 16).toNat + 7) / 8) (decide (byteAt file 2 = 10 ∨ byteAt file 2 = 11)) (18 + (byteAt file 0).toNat) ps)
    (hN : w * h ≤ ps.length)
    (hf : byteAt file 2 = 2 ∨ byteAt file 2 = 3 → 18 + (byteAt file 0).toNat + w * h * (((byteAt file 16).toNat + 7) / 8) ≤ file.length) :
    ∃ i, loadTga room file = .ok i ∧ i.x = w ∧ i.y = h ∧ i.n = channels (byteAt file 16).toNat (greyFile file) ∧ i.out.size = w * h * i.n ∧
      ∀ Y < h, ∀ X < w, ∀ c < i.n, load i.out ((Y * w + X) * i.n + c) = .ok (colour (byteAt file 16).toNat (greyFile file) file
        (ps.getD ((if (byteAt file 17).toNat / 32 % 2 = 0 then h - 1 - Y else Y) * w + X) 0) c) := by
  subst hw hh
  obtain ⟨t1, t2, t3⟩ := tgaOf_plain hm ht
  obtain ⟨rgb16, kd⟩ := kind_of (grey := greyFile file) hd
  rw [loadTga, if_pos ((tgaTest_of file).2 ⟨.inl ⟨hm, ht⟩, hw0, hh0, hd⟩)]
  obtain ⟨s, hs, hl⟩ := tgaLoad_of file
  rw [hl room _ rgb16 (by rw [t1, if_neg (by decide), t2]; exact kd.comp)]
  have hn := kd.some
  have hle : (tgaOf file).w * (tgaOf file).h ≤ (tgaOf file).w * (tgaOf file).h * channels (byteAt file 16).toNat (greyFile file) := Nat.le_mul_of_pos_right _ hn
  have hsize' : (tgaOf file).w * (tgaOf file).h * channels (byteAt file 16).toNat (greyFile file) < 2 ^ 31 := hsize
  have hroom' : (tgaOf file).w * (tgaOf file).h * channels (byteAt file 16).toNat (greyFile file) ≤ room := hroom
  rw [tgaBody, if_neg (by omega), if_neg (by omega), if_neg (by omega)]
  obtain ⟨m, a1, a2, a3⟩ := plain_ok (room := room) (n := channels (byteAt file 16).toNat (greyFile file)) (rgb16 := rgb16) t1 hs (by rw [kd.step, t3]; exact hpl) hN (by
    intro h1 h2
    have h3 := kd.step
    rw [h2, if_neg (by decide)] at h3
    rw [h3]
    refine hf ?_
    rw [t3, decide_eq_false_iff_not] at h1
    rcases ht with h | h | h | h
    · exact .inl h
    · exact .inr h
    · exact absurd (.inl h) h1
    · exact absurd (.inr h) h1)
  rw [a1, Outcome.bind_ok]
  obtain ⟨m', b1, b2, b3⟩ := tgaFinish_ok (t := tgaOf file) (rgb16 := rgb16) (m := m) a2
  rw [b1, Outcome.bind_ok]
  refine ⟨_, rfl, rfl, rfl, rfl, b2, fun Y hY X hX c hc => ?_⟩
  have hlt := pixel_lt hY hX
  simp only at hc ⊢
  refine load_some ?_ ?_
  · have : (Y * le16 file 12 + X + 1) * channels (byteAt file 16).toNat (greyFile file) ≤
        le16 file 12 * le16 file 14 * channels (byteAt file 16).toNat (greyFile file) := Nat.mul_le_mul_right _ hlt
    rw [Nat.add_mul, Nat.one_mul] at this
    have : m'.size = le16 file 12 * le16 file 14 * channels (byteAt file 16).toNat (greyFile file) := b2
    omega
  · have := b3 _ hlt c hc
    rw [this, kd.col _ _ _ hc, ← tga_row]
    have hc' : (if 3 ≤ channels (byteAt file 16).toNat (greyFile file) ∧ rgb16 = false then swapped (channels (byteAt file 16).toNat (greyFile file)) c else c) <
        channels (byteAt file 16).toNat (greyFile file) := by
      split
      · exact swapped_lt hc
      · exact hc
    exact a3 Y hY X hX _ hc'

/-- **C160** (what holds) A TGA file whose pixels are stored as they are, with 8, 15, 16, 24 or 32 bits each, is read, for every width and height, however long the text in front
of the pixels is: each sample is what the file has for its row, column and colour, with the rows from the bottom up unless bit 5 of byte 17 is set. -/
theorem C160_read (room w h : Nat) (file : List UInt8) (hm : byteAt file 1 = 0) (ht : byteAt file 2 = 2 ∨ byteAt file 2 = 3)
    (hd : (byteAt file 16).toNat ∈ [8, 15, 16, 24, 32]) (hw : le16 file 12 = w) (hh : le16 file 14 = h) (hw0 : 0 < w) (hh0 : 0 < h)
    (hsize : w * h * channels (byteAt file 16).toNat (greyFile file) < 2 ^ 31) (hroom : w * h * channels (byteAt file 16).toNat (greyFile file) ≤ room)
    (hf : 18 + (byteAt file 0).toNat + w * h * (((byteAt file 16).toNat + 7) / 8) ≤ file.length) :
    ∃ i, loadTga room file = .ok i ∧ i.x = w ∧ i.y = h ∧ i.n = channels (byteAt file 16).toNat (greyFile file) ∧ i.out.size = w * h * i.n ∧
      ∀ Y < h, ∀ X < w, ∀ c < i.n, load i.out ((Y * w + X) * i.n + c) = .ok (colour (byteAt file 16).toNat (greyFile file) file
        (18 + (byteAt file 0).toNat + ((if (byteAt file 17).toNat / 32 % 2 = 0 then h - 1 - Y else Y) * w + X) * (((byteAt file 16).toNat + 7) / 8)) c) := by
  have hd' : tgaDepth (byteAt file 16).toNat = true := by
    simp only [List.mem_cons, List.not_mem_nil, or_false] at hd
    simp only [tgaDepth, Bool.or_eq_true, beq_iff_eq]
    omega
  have hr : decide (byteAt file 2 = 10 ∨ byteAt file 2 = 11) = false := by
    rcases ht with h | h <;> rw [h] <;> decide
  obtain ⟨i, a1, a2, a3, a4, a5, a6⟩ := tga_plain (ps := (List.range (w * h)).map fun i => 18 + (byteAt file 0).toNat + i * (((byteAt file 16).toNat + 7) / 8)) hm
    (by rcases ht with h | h
        · exact .inl h
        · exact .inr (.inl h)) hd' hw hh hw0 hh0 hsize hroom
    (by rw [hr, Places, if_neg (by decide)]; exact ⟨_, rfl⟩) (by simp) (fun _ => hf)
  refine ⟨i, a1, a2, a3, a4, a5, fun Y hY X hX c hc => ?_⟩
  rw [a6 Y hY X hX c hc]
  generalize hY' : (if (byteAt file 17).toNat / 32 % 2 = 0 then h - 1 - Y else Y) = Y'
  have : Y' < h := by
    rw [← hY']
    split <;> omega
  rw [List.getD_eq_getElem?_getD, List.getElem?_map, List.getElem?_range (pixel_lt this hX)]
  rfl

/-- two rows of one pixel of 24 bits, from the bottom up, behind a text of one byte -/
def twoTga : List UInt8 := [1, 0, 2, 0, 0, 0, 0, 0, 0, 0, 0, 0, 1, 0, 2, 0, 24, 0, 99, 1, 2, 3, 4, 5, 6]

example : ∃ i, loadTga 100 twoTga = .ok i ∧ i.x = 1 ∧ i.y = 2 ∧ load i.out 0 = .ok 6 ∧ load i.out 1 = .ok 5 ∧ load i.out 2 = .ok 4 ∧ load i.out 3 = .ok 3 := by
  obtain ⟨i, a1, a2, a3, a4, _, a6⟩ := C160_read 100 1 2 twoTga (by decide) (by decide) (by decide) (by decide) (by decide) (by decide) (by decide) (by decide) (by decide)
    (by decide)
  have a4 : i.n = 3 := a4
  rw [a4] at a6
  exact ⟨i, a1, a2, a3, a6 0 (by decide) 0 (by decide) 0 (by decide), a6 0 (by decide) 0 (by decide) 1 (by decide), a6 0 (by decide) 0 (by decide) 2 (by decide),
    a6 1 (by decide) 0 (by decide) 0 (by decide)⟩

/-- **C160** (what holds) A TGA file whose pixels come in packets, either so many pixels or one that is repeated, is read: each sample is that of the pixel that the
packets give for its row and column, also if a packet goes over the end of a row. -/
theorem C160_runs (room w h : Nat) (file : List UInt8) (ps : List Nat) (hm : byteAt file 1 = 0) (ht : byteAt file 2 = 10 ∨ byteAt file 2 = 11)
    (hd : (byteAt file 16).toNat ∈ [8, 15, 16, 24, 32]) (hw : le16 file 12 = w) (hh : le16 file 14 = h) (hw0 : 0 < w) (hh0 : 0 < h)
    (hsize : w * h * channels (byteAt file 16).toNat (greyFile file) < 2 ^ 31) (hroom : w * h * channels (byteAt file 16).toNat (greyFile file) ≤ room)
    (hp : Packets file (((byteAt file 16).toNat + 7) / 8) (18 + (byteAt file 0).toNat) ps) (hN : w * h ≤ ps.length) :
    ∃ i, loadTga room file = .ok i ∧ i.x = w ∧ i.y = h ∧ i.n = channels (byteAt file 16).toNat (greyFile file) ∧ i.out.size = w * h * i.n ∧
      ∀ Y < h, ∀ X < w, ∀ c < i.n, load i.out ((Y * w + X) * i.n + c) = .ok (colour (byteAt file 16).toNat (greyFile file) file
        (ps.getD ((if (byteAt file 17).toNat / 32 % 2 = 0 then h - 1 - Y else Y) * w + X) 0) c) := by
  have hd' : tgaDepth (byteAt file 16).toNat = true := by
    simp only [List.mem_cons, List.not_mem_nil, or_false] at hd
    simp only [tgaDepth, Bool.or_eq_true, beq_iff_eq]
    omega
  exact tga_plain hm (.inr (.inr ht)) hd' hw hh hw0 hh0 hsize hroom (by rw [decide_eq_true ht, Places, if_pos rfl]; exact hp) hN
    (fun h => by rcases ht with h' | h' <;> rw [h'] at h <;> exact absurd h (by decide))

/-- two pixels in each of two rows, from the top down: one that is there three times, and one -/
def runTga : List UInt8 := [0, 0, 11, 0, 0, 0, 0, 0, 0, 0, 0, 0, 2, 0, 2, 0, 8, 32, 130, 7, 0, 9]

example : ∃ i, loadTga 100 runTga = .ok i ∧ i.x = 2 ∧ i.y = 2 ∧ load i.out 0 = .ok 7 ∧ load i.out 1 = .ok 7 ∧ load i.out 2 = .ok 7 ∧ load i.out 3 = .ok 9 := by
  have hp : Packets runTga 1 18 [19, 19, 19, 21] :=
    .run 18 2 [21] (by decide) (by decide) (.raw 20 0 [] (by decide) (by decide) (.nil _))
  obtain ⟨i, a1, a2, a3, a4, _, a6⟩ := C160_runs 100 2 2 runTga [19, 19, 19, 21] (by decide) (by decide) (by decide) (by decide) (by decide) (by decide) (by decide)
    (by decide) (by decide) hp (by decide)
  have a4 : i.n = 1 := a4
  rw [a4] at a6
  exact ⟨i, a1, a2, a3, a6 0 (by decide) 0 (by decide) 0 (by decide), a6 0 (by decide) 1 (by decide) 0 (by decide), a6 1 (by decide) 0 (by decide) 0 (by decide),
    a6 1 (by decide) 1 (by decide) 0 (by decide)⟩

/-- **C160** (what holds) Such packets are there in every file, for as many pixels as are wanted: behind its end a file is as if it had zeros. -/
theorem C160_packets (file : List UInt8) (b k N : Nat) : ∃ ps, Packets file b k ps ∧ N ≤ ps.length := packets_long file b N k

example : ∃ ps, Packets runTga 1 18 ps ∧ 1000 ≤ ps.length := C160_packets runTga 1 18 1000

/-- **C160** (what holds) A TGA file with a palette is read, with or without packets: each sample is that of the entry of the palette that the pixel names, and of the
first entry if there is none. -/
theorem C160_palette (room w h : Nat) (file : List UInt8) (ps : List Nat) (hm : byteAt file 1 = 1) (ht : byteAt file 2 = 1 ∨ byteAt file 2 = 9)
    (hd : (byteAt file 7).toNat ∈ [8, 15, 16, 24, 32]) (hb : byteAt file 16 = 8 ∨ byteAt file 16 = 16) (hs0 : le16 file 3 = 0) (hl0 : 0 < le16 file 5)
    (hw : le16 file 12 = w) (hh : le16 file 14 = h) (hw0 : 0 < w) (hh0 : 0 < h)
    (hsize : w * h * channels (byteAt file 7).toNat false < 2 ^ 31) (hroom : w * h * channels (byteAt file 7).toNat false ≤ room)
    (hpr : le16 file 5 * channels (byteAt file 7).toNat false ≤ room)
    (hf : 18 + (byteAt file 0).toNat + le16 file 5 * (((byteAt file 7).toNat + 7) / 8) ≤ file.length)
    (hp : Places file (if byteAt file 16 = 8 then 1 else 2) (decide (byteAt file 2 = 9))
      (18 + (byteAt file 0).toNat + le16 file 5 * (((byteAt file 7).toNat + 7) / 8)) ps) (hN : w * h ≤ ps.length) :
    ∃ i, loadTga room file = .ok i ∧ i.x = w ∧ i.y = h ∧ i.n = channels (byteAt file 7).toNat false ∧ i.out.size = w * h * i.n ∧
      ∀ Y < h, ∀ X < w, ∀ c < i.n, ∀ p v, p = ps.getD ((if (byteAt file 17).toNat / 32 % 2 = 0 then h - 1 - Y else Y) * w + X) 0 →
        v = (if byteAt file 16 = 8 then (byteAt file p).toNat else le16 file p) →
        load i.out ((Y * w + X) * i.n + c) = .ok (colour (byteAt file 7).toNat false file
          (18 + (byteAt file 0).toNat + (if v < le16 file 5 then v else 0) * (((byteAt file 7).toNat + 7) / 8)) c) := by
  have hd' : tgaDepth (byteAt file 7).toNat = true := by
    simp only [List.mem_cons, List.not_mem_nil, or_false] at hd
    simp only [tgaDepth, Bool.or_eq_true, beq_iff_eq]
    omega
  subst hw hh
  obtain ⟨t1, t3⟩ := tgaOf_pal hm ht
  obtain ⟨rgb16, kd⟩ := kind_of (grey := false) hd'
  have hbpp : ((tgaOf file).bpp = 8) ↔ byteAt file 16 = 8 := by
    show (byteAt file 16).toNat = 8 ↔ _
    rw [← UInt8.toNat_inj]; rfl
  have hst : (tgaOf file).palStart = 0 := hs0
  rw [loadTga, if_pos ((tgaTest_of file).2 ⟨.inr ⟨hm, ht, hd', hb⟩, hw0, hh0, by rcases hb with h | h <;> rw [h] <;> decide⟩)]
  obtain ⟨s, hs, hl⟩ := tgaLoad_of file
  rw [hl room _ rgb16 (by rw [t1, if_pos rfl]; exact kd.comp)]
  have hn := kd.some
  have hle : (tgaOf file).w * (tgaOf file).h ≤ (tgaOf file).w * (tgaOf file).h * channels (byteAt file 7).toNat false := Nat.le_mul_of_pos_right _ hn
  have hsize' : (tgaOf file).w * (tgaOf file).h * channels (byteAt file 7).toNat false < 2 ^ 31 := hsize
  have hroom' : (tgaOf file).w * (tgaOf file).h * channels (byteAt file 7).toNat false ≤ room := hroom
  rw [tgaBody, if_neg (by omega), if_neg (by omega), if_neg (by omega)]
  obtain ⟨m, a1, a2, a3⟩ := pal_ok (room := room) (n := channels (byteAt file 7).toNat false) (rgb16 := rgb16) (ps := ps) t1 hl0 hs (by rw [hst]; decide) hpr kd.three (by
      intro h2
      have h3 := kd.step
      rw [h2, if_neg (by decide)] at h3
      rw [h3, hst]
      exact hf) (by
      rw [kd.step, t3, hst]
      simp only [hbpp]
      exact hp) hN
  rw [a1, Outcome.bind_ok]
  obtain ⟨m', b1, b2, b3⟩ := tgaFinish_ok (t := tgaOf file) (rgb16 := rgb16) (m := m) a2
  rw [b1, Outcome.bind_ok]
  refine ⟨_, rfl, rfl, rfl, rfl, b2, fun Y hY X hX c hc p v hpp hv => ?_⟩
  have hlt := pixel_lt hY hX
  simp only at hc ⊢
  refine load_some ?_ ?_
  · have : (Y * le16 file 12 + X + 1) * channels (byteAt file 7).toNat false ≤ le16 file 12 * le16 file 14 * channels (byteAt file 7).toNat false :=
      Nat.mul_le_mul_right _ hlt
    rw [Nat.add_mul, Nat.one_mul] at this
    have : m'.size = le16 file 12 * le16 file 14 * channels (byteAt file 7).toNat false := b2
    omega
  · have hx : idxAt (tgaOf file).bpp (tgaOf file).palLen file p = if v < le16 file 5 then v else 0 := by
      simp only [idxAt, hbpp]
      rw [← hv]
      show (if le16 file 5 ≤ v then 0 else v) = _
      by_cases h : v < le16 file 5
      · rw [if_pos h, if_neg (by omega)]
      · rw [if_neg h, if_pos (by omega)]
    have := b3 _ hlt c hc
    rw [this, kd.col _ _ _ hc, ← hx, hpp, ← tga_row]
    have hc' : (if 3 ≤ channels (byteAt file 7).toNat false ∧ rgb16 = false then swapped (channels (byteAt file 7).toNat false) c else c) <
        channels (byteAt file 7).toNat false := by
      split
      · exact swapped_lt hc
      · exact hc
    have := a3 Y hY X hX _ hc'
    rw [kd.step, hst] at this
    exact this

/-- a palette of two colours, and the pixels 1, 5 -/
def palTga : List UInt8 := [0, 1, 1, 0, 0, 2, 0, 24, 0, 0, 0, 0, 2, 0, 1, 0, 8, 0, 1, 2, 3, 4, 5, 6, 1, 5]

example : ∃ i, loadTga 100 palTga = .ok i ∧ i.x = 2 ∧ i.y = 1 ∧ load i.out 0 = .ok 6 ∧ load i.out 2 = .ok 4 ∧ load i.out 3 = .ok 3 := by
  obtain ⟨i, a1, a2, a3, a4, _, a6⟩ := C160_palette 100 2 1 palTga [24, 25] (by decide) (by decide) (by decide) (by decide) (by decide) (by decide) (by decide) (by decide)
    (by decide) (by decide) (by decide) (by decide) (by decide) (by decide) (by rw [Places, if_neg (by decide)]; exact ⟨2, rfl⟩) (by decide)
  have a4 : i.n = 3 := a4
  rw [a4] at a6
  exact ⟨i, a1, a2, a3, a6 0 (by decide) 0 (by decide) 0 (by decide) _ _ rfl rfl, a6 0 (by decide) 0 (by decide) 2 (by decide) _ _ rfl rfl,
    a6 0 (by decide) 1 (by decide) 0 (by decide) _ _ rfl rfl⟩

end Verif.Png
