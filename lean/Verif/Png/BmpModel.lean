import Verif.Png.FileModel

/-!
# Model of reading BMP files in `ristra/io/catalyst/utils/stb_image.h`

`stbi__bmp_test_raw` to `stbi__bmp_load` (lines 5134-5477), for a file that begins with `BM`, as `stbi_load` calls them with `req_comp` 0.  The
assertions are active.  `>>` of a negative number rounds down, and the conversion of a number of 32 bits to `int` keeps the bits.
-/

namespace Verif.Png

/-- the reader with the number of bytes of the buffer that have been taken, `img_buffer - buffer_start`, stb_image.h:744-757 -/
structure Rd where
  src : Src
  pos : Nat

/-- `stbi__get8`, stb_image.h:1499-1524.  At the end of the file the buffer holds one zero. -/
def rd8 (r : Rd) : UInt8 × Rd := ((get8 r.src).1, ⟨(get8 r.src).2, if r.src.buf.isEmpty then 1 else r.pos + 1⟩)

/-- `stbi__get16le`, stb_image.h:1615-1619 -/
def rd16 (r : Rd) : Nat × Rd :=
  let (a, r) := rd8 r
  let (b, r) := rd8 r
  (a.toNat + b.toNat * 256, r)

/-- `stbi__get32le`, stb_image.h:1623-1627 -/
def rd32 (r : Rd) : Nat × Rd :=
  let (a, r) := rd16 r
  let (b, r) := rd16 r
  (a + b * 65536, r)

/-- bytes that are read and not used, as at stb_image.h:5214-5216 -/
def rdSkip : Nat → Rd → Rd
  | 0, r => r
  | k + 1, r => rdSkip k (rd8 r).2

/-- `stbi__bmp_data`, stb_image.h:5203-5208, and `img_x`, `img_y` as numbers of 32 bits -/
structure Bmp where
  bpp : Nat
  offset : Nat
  hsz : Nat
  mr : Nat := 0
  mg : Nat := 0
  mb : Nat := 0
  ma : Nat := 0
  allA : Nat := 255
  extra : Nat := 14
  x : Nat
  y : Nat

/-- the masks of a header of 40 or 56 bytes, stb_image.h:5241-5272 -/
def bmpMasks (info : Bmp) (compress : Nat) (r : Rd) : Outcome (Bmp × Rd) :=
  let r := if info.hsz = 56 then rdSkip 16 r else r
  if info.bpp = 16 ∨ info.bpp = 32 then
    if compress = 0 then
      if info.bpp = 32 then .ok ({ info with mr := 0xff0000, mg := 0xff00, mb := 0xff, ma := 0xff000000, allA := 0 }, r)
      else .ok ({ info with mr := 31 * 1024, mg := 31 * 32, mb := 31 }, r)
    else if compress = 3 then
      let (mr, r) := rd32 r
      let (mg, r) := rd32 r
      let (mb, r) := rd32 r
      if mr = mg ∧ mg = mb then .throws "bad BMP" else .ok ({ info with mr := mr, mg := mg, mb := mb, extra := info.extra + 12 }, r)
    else .throws "bad BMP"
  else .ok (info, r)

/-- the masks of a header of 108 or 124 bytes, stb_image.h:5277-5289 -/
def bmpLong (info : Bmp) (r : Rd) : Outcome (Bmp × Rd) :=
  let (mr, r) := rd32 r
  let (mg, r) := rd32 r
  let (mb, r) := rd32 r
  let (ma, r) := rd32 r
  let r := rdSkip 52 r
  let r := if info.hsz = 124 then rdSkip 16 r else r
  .ok ({ info with mr := mr, mg := mg, mb := mb, ma := ma }, r)

/-- `stbi__bmp_parse_header`, stb_image.h:5210-5293 -/
def bmpHeader (r : Rd) : Outcome (Bmp × Rd) :=
  let (b, r) := rd8 r
  if b ≠ 66 then .throws "not BMP"
  else
    let (m, r) := rd8 r
    if m ≠ 77 then .throws "not BMP"
    else
      let r := rdSkip 8 r
      let (offset, r) := rd32 r
      let (hsz, r) := rd32 r
      if hsz ≠ 12 ∧ hsz ≠ 40 ∧ hsz ≠ 56 ∧ hsz ≠ 108 ∧ hsz ≠ 124 then .throws "unknown BMP"
      else
        let (x, r) := if hsz = 12 then rd16 r else rd32 r
        let (y, r) := if hsz = 12 then rd16 r else rd32 r
        let (planes, r) := rd16 r
        if planes ≠ 1 then .throws "bad BMP"
        else
          let (bpp, r) := rd16 r
          let info : Bmp := { bpp := bpp, offset := offset, hsz := hsz, x := x, y := y }
          if hsz ≠ 12 then
            let (compress, r) := rd32 r
            if compress = 1 ∨ compress = 2 then .throws "BMP RLE"
            else
              let r := rdSkip 20 r
              if hsz = 40 ∨ hsz = 56 then bmpMasks info compress r else bmpLong info r
          else .ok (info, r)

/-- the result of arithmetic on `int`, stb_image.h:5321, 5324, 5355, 5404: undefined if it does not fit -/
def i32 (v : Int) : Outcome Int := if -2 ^ 31 ≤ v ∧ v < 2 ^ 31 then .ok v else .ub

/-- `stbi__skip`, stb_image.h:1545-1561 -/
def skipInt (s : Src) (n : Int) : Src := if n < 0 then ⟨[], s.rest⟩ else skip s n.toNat

/-- the variables of the loops of `stbi__bmp_load`: `out`, `z`, the reader, `all_a` -/
structure Px where
  out : Buf
  z : Nat
  s : Src
  allA : Nat

/-- a pixel of 24 or 32 bits, stb_image.h:5426-5433 -/
def easyPixel (four wide : Bool) (p : Px) : Outcome Px :=
  let (b, s) := get8 p.s
  store p.out (p.z + 2) b >>= fun m =>
    let (g, s) := get8 s
    store m (p.z + 1) g >>= fun m =>
      let (r, s) := get8 s
      store m p.z r >>= fun m =>
        let (a, s) := if four then get8 s else (255, s)
        if wide then store m (p.z + 3) a >>= fun m => .ok ⟨m, p.z + 4, s, p.allA ||| a.toNat⟩
        else .ok ⟨m, p.z + 3, s, p.allA ||| a.toNat⟩

/-- `stbi__high_bit`, stb_image.h:5158-5168 -/
def highBit (z : Nat) : Int := if z = 0 then -1 else Nat.log2 z

/-- `stbi__bitcount`, stb_image.h:5170-5178 -/
def bitCount (a : Nat) : Nat := ((List.range 32).filter fun i => a.testBit i).length

/-- `mul_table`, stb_image.h:5185-5189 -/
def mulTable : List Nat := [0, 0xff, 0x55, 0x49, 0x11, 0x21, 0x41, 0x81, 0x01]

/-- `shift_table`, stb_image.h:5190-5192 -/
def shiftTable : List Nat := [0, 0, 0, 1, 0, 2, 4, 6, 0]

/-- `stbi__shiftsigned`, stb_image.h:5183-5201: a shift by a negative number is undefined -/
def shiftSigned (v : Nat) (mask : Nat) : Outcome Nat :=
  let shift := highBit mask - 7
  let v := if shift < 0 then (v <<< (-shift).toNat) % 2 ^ 32 else v >>> shift.toNat
  if ¬ v < 256 then .assertFail
  else if 8 < bitCount mask then .ub
  else .ok (((v >>> (8 - bitCount mask)) * mulTable.getD (bitCount mask) 0) >>> shiftTable.getD (bitCount mask) 0)

/-- a pixel by masks, stb_image.h:5418-5421, 5438-5445 -/
def maskPixel (info : Bmp) (wide : Bool) (p : Px) : Outcome Px :=
  let (lo, s) := get8 p.s
  let (hi, s) := get8 s
  let low := lo.toNat + hi.toNat * 256
  let (v, s) :=
    if info.bpp = 16 then (low, s)
    else
      let (lo, s) := get8 s
      let (hi, s) := get8 s
      (low + (lo.toNat + hi.toNat * 256) * 65536, s)
  shiftSigned (v &&& info.mr) info.mr >>= fun r =>
    store p.out p.z (UInt8.ofNat r) >>= fun m =>
      shiftSigned (v &&& info.mg) info.mg >>= fun g =>
        store m (p.z + 1) (UInt8.ofNat g) >>= fun m =>
          shiftSigned (v &&& info.mb) info.mb >>= fun b =>
            store m (p.z + 2) (UInt8.ofNat b) >>= fun m =>
              (if info.ma ≠ 0 then shiftSigned (v &&& info.ma) info.ma else .ok 255) >>= fun a =>
                if wide then store m (p.z + 3) (UInt8.ofNat a) >>= fun m => .ok ⟨m, p.z + 4, s, p.allA ||| a⟩
                else .ok ⟨m, p.z + 3, s, p.allA ||| a⟩

/-- a colour of the palette, stb_image.h:5366-5369, 5386-5389, 5392-5395: an entry that is not set is not determined -/
def palPixel (pal : List (UInt8 × UInt8 × UInt8)) (wide : Bool) (color : Nat) (p : Px) : Outcome Px :=
  put p.out p.z (pal[color]?.map (·.1)) >>= fun m =>
    put m (p.z + 1) (pal[color]?.map (·.2.1)) >>= fun m =>
      put m (p.z + 2) (pal[color]?.map (·.2.2)) >>= fun m =>
        if wide then store m (p.z + 3) 255 >>= fun m => .ok { p with out := m, z := p.z + 4 } else .ok { p with out := m, z := p.z + 3 }

/-- a row of one bit per pixel, stb_image.h:5363-5375 -/
def palRow1 (pal : List (UInt8 × UInt8 × UInt8)) (wide : Bool) (x : Nat) (p : Px) : Outcome Px :=
  let (v, s) := get8 p.s
  loop x (fun i q =>
    palPixel pal wide (q.2.toNat / 2 ^ (7 - i % 8) % 2) q.1 >>= fun p =>
      if i + 1 = x then .ok (p, q.2)
      else if i % 8 = 7 then .ok ({ p with s := (get8 p.s).2 }, (get8 p.s).1)
      else .ok (p, q.2)) ({ p with s := s }, v) >>= fun q => .ok q.1

/-- a row of four or eight bits per pixel, stb_image.h:5380-5396 -/
def palRow (pal : List (UInt8 × UInt8 × UInt8)) (wide : Bool) (bpp x : Nat) (p : Px) : Outcome Px :=
  loop ((x + 1) / 2) (fun k p =>
    let (v, s) := get8 p.s
    palPixel pal wide (if bpp = 4 then v.toNat / 16 else v.toNat) { p with s := s } >>= fun p =>
      if 2 * k + 1 = x then .ok p
      else if bpp = 8 then palPixel pal wide (get8 p.s).1.toNat { p with s := (get8 p.s).2 }
      else palPixel pal wide (v.toNat % 16) p) p

/-- the palette, stb_image.h:5348-5354 -/
def bmpPalette (long : Bool) : Nat → Src → List (UInt8 × UInt8 × UInt8) × Src
  | 0, s => ([], s)
  | k + 1, s =>
    let (b, s) := get8 s
    let (g, s) := get8 s
    let (r, s) := get8 s
    let s := if long then (get8 s).2 else s
    ((r, g, b) :: (bmpPalette long k s).1, (bmpPalette long k s).2)

/-- the rows and what fills them up, stb_image.h:5362-5377, 5379-5398, 5423-5449 -/
def bmpRows (row : Px → Outcome Px) (pad y : Nat) (p : Px) : Outcome Px :=
  loop y (fun _ p => row p >>= fun p => .ok { p with s := skip p.s pad }) p

/-- `(-width) & 3`, stb_image.h:5360, 5408 -/
def padOf (width : Nat) : Nat := (4 - width % 4) % 4

/-- the pixels by a palette, stb_image.h:5345-5399 -/
def bmpIndexed (info : Bmp) (psize : Int) (wide : Bool) (y : Nat) (m : Buf) (s : Src) : Outcome Px :=
  if psize = 0 ∨ 256 < psize then .throws "invalid"
  else
    let (pal, s) := bmpPalette (info.hsz ≠ 12) psize.toNat s
    i32 (int32 info.offset - info.extra - info.hsz) >>= fun d =>
      i32 (d - psize * (if info.hsz = 12 then 3 else 4)) >>= fun d =>
        let s := skipInt s d
        if info.bpp = 1 then bmpRows (palRow1 pal wide info.x) (padOf ((info.x + 7) / 8)) y ⟨m, 0, s, info.allA⟩
        else if info.bpp = 4 then bmpRows (palRow pal wide 4 info.x) (padOf ((info.x + 1) / 2)) y ⟨m, 0, s, info.allA⟩
        else if info.bpp = 8 then bmpRows (palRow pal wide 8 info.x) (padOf info.x) y ⟨m, 0, s, info.allA⟩
        else .throws "bad bpp"

/-- the pixels by themselves, stb_image.h:5400-5450 -/
def bmpDirect (info : Bmp) (wide : Bool) (y : Nat) (m : Buf) (s : Src) : Outcome Px :=
  i32 (int32 info.offset - info.extra - info.hsz) >>= fun d =>
    let s := skipInt s d
    if info.bpp = 24 then bmpRows (loop info.x fun _ => easyPixel false wide) (padOf (3 * info.x)) y ⟨m, 0, s, info.allA⟩
    else if info.bpp = 32 ∧ info.mb = 0xff ∧ info.mg = 0xff00 ∧ info.mr = 0xff0000 ∧ info.ma = 0xff000000 then
      bmpRows (loop info.x fun _ => easyPixel true wide) 0 y ⟨m, 0, s, info.allA⟩
    else if info.mr = 0 ∨ info.mg = 0 ∨ info.mb = 0 then .throws "bad masks"
    else bmpRows (loop info.x fun _ => maskPixel info wide) (if info.bpp = 16 then padOf (2 * info.x) else 0) y ⟨m, 0, s, info.allA⟩

/-- `t = p1[i]; p1[i] = p2[i]; p2[i] = t`, stb_image.h:5463 -/
def swap (m : Buf) (a b : Nat) : Outcome Buf :=
  if a < m.size ∧ b < m.size then .ok ⟨m.size, fun q => if q = a then m.at_ b else if q = b then m.at_ a else m.at_ q⟩ else .ub

/-- the rows in the other order, stb_image.h:5457-5466; `w` is the length of a row -/
def flipRows (w y : Nat) (m : Buf) : Outcome Buf :=
  loop (y / 2) (fun j => loop w fun i m => swap m (j * w + i) ((y - 1 - j) * w + i)) m

/-- an alpha channel of zeros only is replaced, stb_image.h:5453-5455; the bytes are set from the first to the last -/
def opaqueRows (n : Nat) (m : Buf) : Outcome Buf := loop n (fun i m => store m (4 * i + 3) 255) m

/-- the size of the palette, stb_image.h:5319-5325 -/
def paletteSize (info : Bmp) : Outcome Int :=
  if info.hsz = 12 then
    if info.bpp < 24 then i32 (int32 info.offset - info.extra - 24) >>= fun d => .ok (d.tdiv 3) else .ok 0
  else if info.bpp < 16 then i32 (int32 info.offset - info.extra - info.hsz) >>= fun d => .ok (d / 4)
  else .ok 0

/-- `stbi__bmp_load`, stb_image.h:5310-5476, from the header on -/
def bmpLoad (room : Nat) (info : Bmp) (r : Rd) : Outcome Image :=
  if info.y = 2 ^ 31 then .ub
  else
    let y := (int32 info.y).natAbs
    paletteSize info >>= fun psize =>
      if psize = 0 ∧ int32 info.offset ≠ r.pos then .assertFail
      else
        let n := if info.bpp = 24 ∧ info.ma = 0xff000000 then 3 else if info.ma ≠ 0 then 4 else 3
        if 2 ^ 31 ≤ info.x ∨ 2 ^ 31 ≤ n * info.x ∨ 2 ^ 31 ≤ n * info.x * y then .throws "too large"
        else if room < n * info.x * y then .throws "outofmem"
        else
          (if info.bpp < 16 then bmpIndexed info psize (n == 4) y (fresh (n * info.x * y)) r.src
           else bmpDirect info (n == 4) y (fresh (n * info.x * y)) r.src) >>= fun p =>
            (if n = 4 ∧ p.allA = 0 then opaqueRows (info.x * y) p.out else .ok p.out) >>= fun m =>
              (if 0 < int32 info.y then flipRows (info.x * n) y m else .ok m) >>= fun m => .ok ⟨info.x, y, n, 8, m⟩

/-- `stbi_load` of a file that begins with `BM`, stb_image.h:1049-1093, 1166-1188, 1268-1288, 5134-5155.  Looking for the size of the header behind the end of a file that
has no 18 bytes overwrites the first byte (1508): then it is no BMP file, and no other. -/
def loadBmp (room : Nat) (file : List UInt8) : Outcome Image :=
  if file.length < 18 then .throws "unknown image type"
  else bmpHeader ⟨start file, 0⟩ >>= fun h => bmpLoad room h.1 h.2

end Verif.Png
