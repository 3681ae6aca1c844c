import Verif.Common.Outcome
import Verif.Inflate.Model

/-!
# Model of the PNG decoder in `ristra/io/catalyst/utils/stb_image.h`

`stbi__create_png_image_raw` to `stbi__png_load` (lines 4402-5088).
`return stbi__err(..)` is the outcome `throws`.  A block of memory is its size and its bytes, which are not
determined before they are written; reading or writing outside and reading what is not determined is
`ub`.  Memory can run out: nothing greater than `room` bytes can be had.  `int` has 32 bits, and the lower
byte of a `stbi__uint16` comes first.  That `cur - stride` points before the block in the first row, where
it is not used, is not counted.  The flags `stbi__de_iphone_flag` and `stbi__vertically_flip_on_load_global` are 0, as they are
unless the program sets them.
-/

namespace Verif.Png

/-- a block of memory -/
structure Buf where
  size : Nat
  at_ : Nat → Option UInt8

/-- a fresh block -/
def fresh (n : Nat) : Buf := ⟨n, fun _ => none⟩

/-- `m[i]` -/
def load (m : Buf) (i : Nat) : Outcome UInt8 :=
  if i < m.size then
    match m.at_ i with
    | some v => .ok v
    | none => .ub
  else .ub

/-- `m[i] = v`, where the byte `v` may be indeterminate -/
def put (m : Buf) (i : Nat) (v : Option UInt8) : Outcome Buf :=
  if i < m.size then .ok ⟨m.size, fun j => if j = i then v else m.at_ j⟩ else .ub

/-- `m[i] = v` -/
def store (m : Buf) (i : Nat) (v : UInt8) : Outcome Buf := put m i (some v)

/-- `n` rounds of a loop from `i` on -/
def loopFrom {σ : Type} (f : Nat → σ → Outcome σ) : Nat → Nat → σ → Outcome σ
  | 0, _, s => .ok s
  | n + 1, i, s => f i s >>= loopFrom f n (i + 1)

/-- `for (i=0; i < n; ++i)` -/
def loop {σ : Type} (n : Nat) (f : Nat → σ → Outcome σ) (s : σ) : Outcome σ := loopFrom f n 0 s

/-- an element of the data -/
def get (raw : List UInt8) (i : Nat) : Outcome UInt8 :=
  match raw[i]? with
  | some v => .ok v
  | none => .ub

/-- `stbi__malloc_mad3` with nothing added, stb_image.h:931-950, 960-964, 984-988: the factors are not negative -/
def mallocMad3 (room a b c : Nat) : Option Buf :=
  if a * b * c < 2 ^ 31 ∧ a * b * c ≤ room then some (fresh (a * b * c)) else none

/-- `stbi__paeth`, stb_image.h:4464-4473 -/
def paeth (a b c : Nat) : Nat :=
  let p : Int := (a : Int) + b - c
  let pa := (p - a).natAbs
  let pb := (p - b).natAbs
  let pc := (p - c).natAbs
  if pa ≤ pb ∧ pa ≤ pc then a
  else if pb ≤ pc then b
  else c

/-- `first_row_filter`, stb_image.h:4455-4462 -/
def firstRowFilter : List Nat := [0, 1, 0, 5, 6]

/-- the cases of stb_image.h:4525-4533: a byte of the first pixel; `b` is `prior[k]` -/
def reconFirst (filter : Nat) (r : UInt8) (b : Outcome UInt8) : Outcome UInt8 :=
  match filter with
  | 0 => .ok r
  | 1 => .ok r
  | 2 => b >>= fun b => .ok (r + b)
  | 3 => b >>= fun b => .ok (r + (b >>> 1))
  | 4 => b >>= fun b => .ok (r + UInt8.ofNat (paeth 0 b.toNat 0))
  | 5 => .ok r
  | 6 => .ok r
  | _ => .ub

/-- the cases of stb_image.h:4562-4571 and 4580-4588: a byte of another pixel; `a` is the byte before it, `b` is `prior[k]`
and `c` the byte before that one.  Only what is used is read -/
def recon (filter : Nat) (r : UInt8) (a b c : Outcome UInt8) : Outcome UInt8 :=
  match filter with
  | 0 => .ok r
  | 1 => a >>= fun a => .ok (r + a)
  | 2 => b >>= fun b => .ok (r + b)
  | 3 => b >>= fun b => a >>= fun a => .ok (r + UInt8.ofNat ((b.toNat + a.toNat) >>> 1))
  | 4 => a >>= fun a => b >>= fun b => c >>= fun c => .ok (r + UInt8.ofNat (paeth a.toNat b.toNat c.toNat))
  | 5 => a >>= fun a => .ok (r + (a >>> 1))
  | 6 => a >>= fun a => .ok (r + UInt8.ofNat (paeth a.toNat 0 0))
  | _ => .ub

/-- the bytes of the first pixel of a row, stb_image.h:4523-4535: `cur` and `rp` are places in the block and the data -/
def rowFirst (raw : List UInt8) (stride filter fb cur rp : Nat) (m : Buf) : Outcome Buf :=
  loop fb (fun k m =>
    get raw (rp + k) >>= fun r => reconFirst filter r (load m (cur + k - stride)) >>= fun v => store m (cur + k) v) m

/-- the other bytes of a row without alpha added, stb_image.h:4557-4573, behind `cur += ..` and `raw += ..` -/
def rowSame (raw : List UInt8) (stride filter fb nk cur rp : Nat) (m : Buf) : Outcome Buf :=
  loop nk (fun k m =>
    get raw (rp + k) >>= fun r =>
      recon filter r (load m (cur + k - fb)) (load m (cur + k - stride)) (load m (cur + k - stride - fb)) >>= fun v =>
        store m (cur + k) v) m

/-- the other bytes of a row with alpha added, stb_image.h:4575-4589 -/
def rowAlpha (raw : List UInt8) (stride filter fb ob x cur rp : Nat) (m : Buf) : Outcome Buf :=
  loop (x - 1) (fun i m =>
    loop fb (fun k m =>
      get raw (rp + i * fb + k) >>= fun r =>
        recon filter r (load m (cur + i * ob + k - ob)) (load m (cur + i * ob + k - stride))
            (load m (cur + i * ob + k - stride - ob)) >>= fun v =>
          store m (cur + i * ob + k) v) m >>= fun m =>
      store m (cur + i * ob + fb) 255) m

/-- bytes of a row of the picture, `img_width_bytes`, stb_image.h:4496 -/
def widthBytes (n x depth : Nat) : Nat := (n * x * depth + 7) >>> 3

/-- a row, stb_image.h:4504-4600, beginning at the place `rp` of the data; gives the place behind it too -/
def row (raw : List UInt8) (n outN x depth j : Nat) (s : Buf × Nat) : Outcome (Buf × Nat) :=
  let bytes := if depth = 16 then 2 else 1
  let stride := x * outN * bytes
  let ob := outN * bytes
  let wb := widthBytes n x depth
  get raw s.2 >>= fun f =>
    if 4 < f.toNat then .throws "invalid filter"
    else if depth < 8 ∧ x < wb then .assertFail
    else
      let cur := if depth < 8 then stride * j + (x * outN - wb) else stride * j
      let fb := if depth < 8 then 1 else n * bytes
      let width := if depth < 8 then wb else x
      (if j = 0 then Inflate.tab firstRowFilter f.toNat else .ok f.toNat) >>= fun filter =>
        rowFirst raw stride filter fb cur (s.2 + 1) s.1 >>= fun m =>
          (if 8 ≤ depth ∧ n ≠ outN then
            store m (cur + fb) 255 >>= fun m => if depth = 16 then store m (cur + fb + 1) 255 else .ok m
           else .ok m) >>= fun m =>
            let cur' := if depth < 8 then cur + 1 else cur + ob
            if depth < 8 ∨ n = outN then
              rowSame raw stride filter fb ((width - 1) * fb) cur' (s.2 + 1 + fb) m >>= fun m =>
                .ok (m, s.2 + 1 + fb + (width - 1) * fb)
            else if n + 1 ≠ outN then .assertFail
            else
              rowAlpha raw stride filter fb ob x cur' (s.2 + 1 + fb) m >>= fun m =>
                (if depth = 16 then loop x (fun i m => store m (stride * j + i * ob + fb + 1) 255) m else .ok m) >>= fun m =>
                  .ok (m, s.2 + 1 + fb + (x - 1) * fb)

/-- `stbi__depth_scale_table`, stb_image.h:4475 -/
def depthScale : List Nat := [0, 0xff, 0x55, 0, 0x11, 0, 0, 0, 0x01]

/-- the shifts and masks of stb_image.h:4621-4622, 4627-4630, 4637-4644: the samples in a byte -/
def cuts (depth : Nat) : List (Nat × Nat) :=
  if depth = 4 then [(4, 0xff), (0, 0x0f)]
  else if depth = 2 then [(6, 0xff), (4, 0x03), (2, 0x03), (0, 0x03)]
  else if depth = 1 then
    [(7, 0xff), (6, 0x01), (5, 0x01), (4, 0x01), (3, 0x01), (2, 0x01), (1, 0x01), (0, 0x01)]
  else []

/-- the samples of a row one by one, stb_image.h:4619-4653: `cur` and `inp` are the places written and read.  The loops
there are unrolled, with the samples of the last byte one by one -/
def unpack (depth scale count cur inp : Nat) (m : Buf) : Outcome Buf :=
  loop count (fun s m =>
    match (cuts depth)[s % (8 / depth)]? with
    | none => .ub
    | some (shift, mask) =>
      load m (inp + s / (8 / depth)) >>= fun b =>
        store m (cur + s) (UInt8.ofNat (scale * ((b.toNat >>> shift) &&& mask)))) m

/-- 255 as alpha behind the samples of a row, stb_image.h:4654-4672, from the last pixel to the first -/
def insertAlpha (n x cur : Nat) (m : Buf) : Outcome Buf :=
  if n = 1 then
    loop x (fun i m =>
      let q := x - 1 - i
      store m (cur + q * 2 + 1) 255 >>= fun m => load m (cur + q) >>= fun v => store m (cur + q * 2) v) m
  else if n ≠ 3 then .assertFail
  else
    loop x (fun i m =>
      let q := x - 1 - i
      store m (cur + q * 4 + 3) 255 >>= fun m =>
        load m (cur + q * 3 + 2) >>= fun v => store m (cur + q * 4 + 2) v >>= fun m =>
          load m (cur + q * 3 + 1) >>= fun v => store m (cur + q * 4 + 1) v >>= fun m =>
            load m (cur + q * 3) >>= fun v => store m (cur + q * 4) v) m

/-- the second pass for less than 8 bits, stb_image.h:4605-4673 -/
def expandBits (n outN x y depth color : Nat) (m : Buf) : Outcome Buf :=
  loop y (fun j m =>
    let stride := x * outN
    Inflate.tab depthScale depth >>= fun t =>
      let scale := if color = 0 then t else 1
      unpack depth scale (x * n) (stride * j) (stride * j + (x * outN - widthBytes n x depth)) m >>= fun m =>
        if n ≠ outN then insertAlpha n x (stride * j) m else .ok m) m

/-- the second pass for 16 bits, stb_image.h:4674-4685: the bytes of a number in the order of the machine -/
def swapBytes (count : Nat) (m : Buf) : Outcome Buf :=
  loop count (fun i m =>
    load m (2 * i) >>= fun h => load m (2 * i + 1) >>= fun l => store m (2 * i) l >>= fun m => store m (2 * i + 1) h) m

/-- `stbi__create_png_image_raw`, stb_image.h:4478-4688; `stbi__mad3sizes_valid(img_n, x, depth, 7)` holds for what is let through
by the header -/
def createRaw (room : Nat) (raw : List UInt8) (n outN x y depth color : Nat) : Outcome Buf :=
  let bytes := if depth = 16 then 2 else 1
  if outN ≠ n ∧ outN ≠ n + 1 then .assertFail
  else
    match mallocMad3 room x y (outN * bytes) with
    | none => .throws "outofmem"
    | some m =>
      if 2 ^ 31 ≤ n * x * depth + 7 then .throws "too large"
      else if raw.length < (widthBytes n x depth + 1) * y % 2 ^ 32 then .throws "not enough pixels"
      else
        loop y (row raw n outN x depth) (m, 0) >>= fun s =>
          if depth < 8 then expandBits n outN x y depth color s.1
          else if depth = 16 then swapBytes (x * y * outN) s.1
          else .ok s.1

/-- `xorig`, `yorig`, `xspc` and `yspc`, stb_image.h:4702-4705 -/
def adam7 : List (Nat × Nat × Nat × Nat) :=
  [(0, 0, 8, 8), (4, 0, 8, 8), (0, 4, 4, 8), (2, 0, 4, 4), (0, 2, 2, 4), (1, 0, 2, 2), (0, 1, 1, 2)]

/-- the number of columns or rows of a pass, stb_image.h:4708-4709: unsigned numbers -/
def passSize (size orig spc : Nat) : Nat := ((size + 2 ^ 32 - orig + spc - 1) % 2 ^ 32) / spc

/-- `memcpy` of `n` bytes -/
def copyTo (src dst : Buf) (from_ to n : Nat) : Outcome Buf :=
  loop n (fun k m => if from_ + k < src.size then put m (to + k) (src.at_ (from_ + k)) else .ub) dst

/-- one pass of stb_image.h:4701-4728: the block so far and the data left -/
def pass (room n outN x y depth color : Nat) (p : Nat × Nat × Nat × Nat) (s : Buf × List UInt8) :
    Outcome (Buf × List UInt8) :=
  let ob := outN * (if depth = 16 then 2 else 1)
  let px := passSize x p.1 p.2.2.1
  let py := passSize y p.2.1 p.2.2.2
  if px ≠ 0 ∧ py ≠ 0 then
    createRaw room s.2 n outN px py depth color >>= fun out =>
      loop py (fun j m => loop px (fun i m =>
        copyTo out m ((j * px + i) * ob) ((j * p.2.2.2 + p.2.1) * x * ob + (i * p.2.2.1 + p.1) * ob) ob) m) s.1 >>= fun m =>
        .ok (m, s.2.drop ((widthBytes n px depth + 1) * py))
  else .ok s

/-- the passes one after another -/
def passes (room n outN x y depth color : Nat) : List (Nat × Nat × Nat × Nat) → Buf × List UInt8 → Outcome (Buf × List UInt8)
  | [], s => .ok s
  | p :: ps, s => pass room n outN x y depth color p s >>= passes room n outN x y depth color ps

/-- `stbi__create_png_image`, stb_image.h:4690-4732; that there is no memory for the picture is not noticed in the interlaced
case, and nothing can be written at a null pointer -/
def createImage (room : Nat) (raw : List UInt8) (n outN x y depth color : Nat) (interlaced : Bool) : Outcome Buf :=
  if interlaced = false then createRaw room raw n outN x y depth color
  else
    let final := (mallocMad3 room x y (outN * (if depth = 16 then 2 else 1))).getD (fresh 0)
    passes room n outN x y depth color adam7 (final, raw) >>= fun s => .ok s.1

/-- a `stbi__uint16` -/
def load16 (m : Buf) (i : Nat) : Outcome Nat :=
  load m (2 * i) >>= fun l => load m (2 * i + 1) >>= fun h => .ok (l.toNat + 256 * h.toNat)

/-- a sample of the picture given back, which has 16 bits or 8 -/
def sampleAt (m : Buf) (depth i : Nat) : Outcome Nat :=
  if depth = 16 then load16 m i else load m i >>= fun v => .ok v.toNat

/-- setting a `stbi__uint16` -/
def store16 (m : Buf) (i v : Nat) : Outcome Buf :=
  store m (2 * i) (UInt8.ofNat v) >>= fun m => store m (2 * i + 1) (UInt8.ofNat (v / 256))

/-- `stbi__compute_transparency`, stb_image.h:4734-4757 -/
def transparency (tc : List Nat) (count outN : Nat) (m : Buf) : Outcome Buf :=
  if outN = 2 then
    loop count (fun i m =>
      load m (2 * i) >>= fun v =>
        Inflate.tab tc 0 >>= fun t => store m (2 * i + 1) (if v.toNat = t then 0 else 255)) m
  else if outN = 4 then
    loop count (fun i m =>
      load m (4 * i) >>= fun r => load m (4 * i + 1) >>= fun g => load m (4 * i + 2) >>= fun b =>
        Inflate.tab tc 0 >>= fun t0 => Inflate.tab tc 1 >>= fun t1 => Inflate.tab tc 2 >>= fun t2 =>
          if r.toNat = t0 ∧ g.toNat = t1 ∧ b.toNat = t2 then store m (4 * i + 3) 0 else .ok m) m
  else .assertFail

/-- `stbi__compute_transparency16`, stb_image.h:4759-4782 -/
def transparency16 (tc : List Nat) (count outN : Nat) (m : Buf) : Outcome Buf :=
  if outN = 2 then
    loop count (fun i m =>
      load16 m (2 * i) >>= fun v =>
        Inflate.tab tc 0 >>= fun t => store16 m (2 * i + 1) (if v = t then 0 else 65535)) m
  else if outN = 4 then
    loop count (fun i m =>
      load16 m (4 * i) >>= fun r => load16 m (4 * i + 1) >>= fun g => load16 m (4 * i + 2) >>= fun b =>
        Inflate.tab tc 0 >>= fun t0 => Inflate.tab tc 1 >>= fun t1 => Inflate.tab tc 2 >>= fun t2 =>
          if r = t0 ∧ g = t1 ∧ b = t2 then store16 m (4 * i + 3) 0 else .ok m) m
  else .assertFail

/-- `stbi__expand_png_palette`, stb_image.h:4784-4819: `pal` are the bytes of `palette`, which are not determined if they were not
set -/
def expandPalette (room : Nat) (pal : Nat → Option UInt8) (count palN : Nat) (m : Buf) : Outcome Buf :=
  if 2 ^ 31 ≤ count * palN ∨ room < count * palN then .throws "outofmem"
  else
    loop count (fun i p =>
      load m i >>= fun v => loop palN (fun k p => put p (palN * i + k) (pal (v.toNat * 4 + k))) p) (fresh (count * palN))

end Verif.Png
