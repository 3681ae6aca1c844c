import Verif.Png.BmpModel

/-!
# Model of reading TGA files in `ristra/io/catalyst/utils/stb_image.h`

`stbi__tga_get_comp` to `stbi__tga_load` (lines 5484-5817), for a file whose second byte is 0 or 1, as `stbi_load` calls them with `req_comp` 0.  The
assertions of these functions (5692, 5743) compare what was set together, and are left out.  A block of no bytes can be had.
-/

namespace Verif.Png

/-- `stbi__get16le`, stb_image.h:1615-1619 -/
def getLe16 (s : Src) : Nat × Src :=
  let (a, s) := get8 s
  let (b, s) := get8 s
  (a.toNat + b.toNat * 256, s)

/-- `stbi__tga_get_comp`, stb_image.h:5484-5498: the number of channels, and whether a pixel is of 5 bits per channel -/
def tgaComp (bits : Nat) (grey : Bool) : Nat × Bool :=
  if bits = 8 then (1, false)
  else if bits = 16 ∧ grey = true then (2, false)
  else if bits = 16 ∨ bits = 15 then (3, true)
  else if bits = 24 ∨ bits = 32 then (bits / 8, false)
  else (0, false)

/-- the depths of stb_image.h:5578, 5587 -/
def tgaDepth (sz : Nat) : Bool := sz == 8 || sz == 15 || sz == 16 || sz == 24 || sz == 32

/-- the end of `stbi__tga_test`, stb_image.h:5584-5589 -/
def tgaTestEnd (color : UInt8) (s : Src) : Bool :=
  let (w, s) := getLe16 s
  if w < 1 then false
  else
    let (h, s) := getLe16 s
    if h < 1 then false
    else
      let (sz, _) := get8 s
      if color = 1 ∧ sz ≠ 8 ∧ sz ≠ 16 then false else tgaDepth sz.toNat

/-- `stbi__tga_test`, stb_image.h:5565-5594 -/
def tgaTest (s : Src) : Bool :=
  let (_, s) := get8 s
  let (color, s) := get8 s
  if 1 < color.toNat then false
  else
    let (sz, s) := get8 s
    if color = 1 then
      if sz ≠ 1 ∧ sz ≠ 9 then false
      else
        let (sz, s) := get8 (skip s 4)
        if tgaDepth sz.toNat then tgaTestEnd color (skip s 4) else false
    else if sz ≠ 2 ∧ sz ≠ 3 ∧ sz ≠ 10 ∧ sz ≠ 11 then false
    else tgaTestEnd color (skip s 9)

/-- the variables of `stbi__tga_load` that come from the header, stb_image.h:5619-5654 -/
structure Tga where
  offset : Nat
  indexed : Bool
  type : Nat
  rle : Bool
  palStart : Nat
  palLen : Nat
  palBits : Nat
  w : Nat
  h : Nat
  bpp : Nat
  inverted : Bool

/-- the header, stb_image.h:5619-5654 -/
def tgaHeader (s : Src) : Tga × Src :=
  let (offset, s) := get8 s
  let (indexed, s) := get8 s
  let (type, s) := get8 s
  let (palStart, s) := getLe16 s
  let (palLen, s) := getLe16 s
  let (palBits, s) := get8 s
  let (_, s) := getLe16 s
  let (_, s) := getLe16 s
  let (w, s) := getLe16 s
  let (h, s) := getLe16 s
  let (bpp, s) := get8 s
  let (inv, s) := get8 s
  ({ offset := offset.toNat, indexed := indexed != 0, type := if 8 ≤ type.toNat then type.toNat - 8 else type.toNat, rle := decide (8 ≤ type.toNat),
     palStart := palStart, palLen := palLen, palBits := palBits.toNat, w := w, h := h, bpp := bpp.toNat, inverted := inv.toNat / 32 % 2 == 0 }, s)

/-- `stbi__tga_read_rgb16`, stb_image.h:5597-5614 -/
def tgaRgb16 (s : Src) : List UInt8 × Src :=
  let (px, s) := getLe16 s
  ([UInt8.ofNat (px / 2 ^ 10 % 32 * 255 / 31), UInt8.ofNat (px / 2 ^ 5 % 32 * 255 / 31), UInt8.ofNat (px % 32 * 255 / 31)], s)

/-- the bytes of a pixel, stb_image.h:5747-5749 -/
def tgaBytes : Nat → Src → List UInt8 × Src
  | 0, s => ([], s)
  | k + 1, s =>
    let (b, s) := get8 s
    (b :: (tgaBytes k s).1, (tgaBytes k s).2)

/-- a palette of colours of 5 bits per channel, stb_image.h:5690-5696 -/
def tgaPal16 : Nat → Src → List UInt8 × Src
  | 0, s => ([], s)
  | k + 1, s =>
    let (e, s) := tgaRgb16 s
    (e ++ (tgaPal16 k s).1, (tgaPal16 k s).2)

/-- the palette, stb_image.h:5679-5702 -/
def tgaPalette (room : Nat) (t : Tga) (n : Nat) (rgb16 : Bool) (s : Src) : Outcome (List UInt8 × Src) :=
  let s := skip s t.palStart
  if room < t.palLen * n then .throws "outofmem"
  else if rgb16 then .ok (tgaPal16 t.palLen s)
  else
    match getn s (t.palLen * n) with
    | some r => .ok r
    | none => .throws "bad palette"

/-- bytes of the palette, stb_image.h:5738-5740: undefined behind its end -/
def palBytes (pal : List UInt8) (k : Nat) : Nat → Outcome (List UInt8)
  | 0 => .ok []
  | n + 1 => get pal k >>= fun b => palBytes pal (k + 1) n >>= fun bs => .ok (b :: bs)

/-- reading a pixel, stb_image.h:5728-5750 -/
def tgaPixel (t : Tga) (n : Nat) (rgb16 : Bool) (pal : List UInt8) (s : Src) : Outcome (List UInt8 × Src) :=
  if t.indexed then
    let (idx, s) := if t.bpp = 8 then ((get8 s).1.toNat, (get8 s).2) else getLe16 s
    let idx := if t.palLen ≤ idx then 0 else idx
    palBytes pal (idx * n) n >>= fun bs => .ok (bs, s)
  else if rgb16 then .ok (tgaRgb16 s)
  else .ok (tgaBytes n s)

/-- the variables of the loop over the pixels: `tga_data`, the reader, `RLE_count`, `RLE_repeating`, `read_next_pixel`, and the bytes of
`raw_data` that are used -/
structure Tp where
  out : Buf
  s : Src
  count : Int
  rep : Bool
  next : Bool
  raw : List UInt8

/-- whether to read a pixel, stb_image.h:5708-5724 -/
def tgaPacket (rle : Bool) (p : Tp) : Tp :=
  if rle then
    if p.count = 0 then
      let (cmd, s) := get8 p.s
      { p with s := s, count := 1 + (cmd.toNat % 128 : Nat), rep := decide (128 ≤ cmd.toNat), next := true }
    else if p.rep = false then { p with next := true }
    else p
  else { p with next := true }

/-- one pixel, stb_image.h:5705-5761; the sum of the counts is less than 2^31 -/
def tgaStep (t : Tga) (n : Nat) (rgb16 : Bool) (pal : List UInt8) (i : Nat) (p : Tp) : Outcome Tp :=
  let p := tgaPacket t.rle p
  (if p.next then tgaPixel t n rgb16 pal p.s >>= fun q => .ok { p with raw := q.1, s := q.2, next := false } else .ok p) >>= fun p =>
    loop n (fun j m => store m (i * n + j) (p.raw.getD j 0)) p.out >>= fun m => .ok { p with out := m, count := p.count - 1 }

/-- the rows in the other order, stb_image.h:5763-5778; `w` is the length of a row -/
def tgaFlip (w h : Nat) (m : Buf) : Outcome Buf :=
  loop ((h + 1) / 2) (fun j => loop w fun i m => swap m (j * w + i) ((h - 1 - j) * w + i)) m

/-- `stbi__getn` to a place in a block, stb_image.h:1566-1588, the result of which is not looked at: what is there is copied -/
def getnAt (m : Buf) (k n : Nat) (s : Src) : Outcome (Buf × Src) :=
  let got := if s.buf.length < n then s.buf ++ s.rest.take (n - s.buf.length) else s.buf.take n
  if k + got.length ≤ m.size then
    .ok (⟨m.size, fun q => if k ≤ q ∧ q < k + got.length then got[q - k]? else m.at_ q⟩,
      if s.buf.length < n then ⟨[], s.rest.drop (n - s.buf.length)⟩ else ⟨s.buf.drop n, s.rest⟩)
  else .ub

/-- pixels that are stored as they are, stb_image.h:5671-5676 -/
def tgaDirect (t : Tga) (n : Nat) (m : Buf) (s : Src) : Outcome Buf :=
  loop t.h (fun i q => getnAt q.1 ((if t.inverted then t.h - i - 1 else i) * t.w * n) (t.w * n) q.2) (m, s) >>= fun q => .ok q.1

/-- pixels one by one, stb_image.h:5678-5784 -/
def tgaCoded (room : Nat) (t : Tga) (n : Nat) (rgb16 : Bool) (m : Buf) (s : Src) : Outcome Buf :=
  (if t.indexed then tgaPalette room t n rgb16 s else .ok ([], s)) >>= fun q =>
    loop (t.w * t.h) (tgaStep t n rgb16 q.1) ⟨m, q.2, 0, false, true, []⟩ >>= fun p =>
      if t.inverted then tgaFlip (t.w * n) t.h p.out else .ok p.out

/-- red and blue change places, stb_image.h:5787-5798 -/
def tgaSwap (n total : Nat) (m : Buf) : Outcome Buf := loop total (fun i m => swap m (i * n) (i * n + 2)) m

/-- `stbi__tga_load`, stb_image.h:5616-5816 -/
def tgaLoad (room : Nat) (s : Src) : Outcome Image :=
  let (t, s) := tgaHeader s
  let (n, rgb16) := if t.indexed then tgaComp t.palBits false else tgaComp t.bpp (t.type == 3)
  if n = 0 then .throws "bad format"
  else if 2 ^ 31 ≤ t.w * t.h ∨ 2 ^ 31 ≤ t.w * t.h * n then .throws "too large"
  else if room < t.w * t.h * n then .throws "outofmem"
  else
    let s := skip s t.offset
    (if !t.indexed && !t.rle && !rgb16 then tgaDirect t n (fresh (t.w * t.h * n)) s
     else tgaCoded room t n rgb16 (fresh (t.w * t.h * n)) s) >>= fun m =>
      (if 3 ≤ n ∧ rgb16 = false then tgaSwap n (t.w * t.h) m else .ok m) >>= fun m => .ok ⟨t.w, t.h, n, 8, m⟩

/-- `stbi_load` of a file whose second byte is 0 or 1, stb_image.h:1049-1093, 1166-1188, 1268-1288: none of the formats that are tried before has it there -/
def loadTga (room : Nat) (file : List UInt8) : Outcome Image :=
  if tgaTest (start file) then tgaLoad room (start file) else .throws "unknown image type"

end Verif.Png
