import Verif.Png.BmpModel
import Mathlib.Algebra.Order.Field.Rat
import Mathlib.Data.Rat.Floor

/-!
# Model of reading PSD files in `ristra/io/catalyst/utils/stb_image.h`

`stbi__psd_decode_rle` and `stbi__psd_load` (lines 5825-6061), for a file that begins with 8BPS, as `stbi_load` calls them: 8 bits per channel of the picture,
`req_comp` 0.  A block of no bytes can be had.  `fl` rounds to `float`; every operation is rounded once.
-/

namespace Verif.Png

/-- bytes that are taken as they are, stb_image.h:5840-5844: `len` of them, from pixel `count` on -/
def psdCopy (ch count len : Nat) (m : Buf) (s : Src) : Outcome (Buf × Src) :=
  loop len (fun j q => store q.1 (4 * (count + j) + ch) (get8 q.2).1 >>= fun m => .ok (m, (get8 q.2).2)) (m, s)

/-- a byte that is repeated, stb_image.h:5853-5857 -/
def psdRun (ch count len : Nat) (v : UInt8) (m : Buf) : Outcome Buf := loop len (fun j m => store m (4 * (count + j) + ch) v) m

/-- `stbi__psd_decode_rle`, stb_image.h:5825-5862: `none` if the data is corrupt; the rounds are bounded -/
def psdRle : Nat → Nat → Nat → Nat → Buf → Src → Outcome (Option (Buf × Src))
  | 0, _, _, _, _, _ => .diverges
  | f + 1, ch, total, count, m, s =>
    if total ≤ count then .ok (some (m, s))
    else
      let len := (get8 s).1.toNat
      let s := (get8 s).2
      if len = 128 then psdRle f ch total count m s
      else if len < 128 then
        if total - count < len + 1 then .ok none
        else psdCopy ch count (len + 1) m s >>= fun q => psdRle f ch total (count + (len + 1)) q.1 q.2
      else if total - count < 257 - len then .ok none
      else psdRun ch count (257 - len) (get8 s).1 m >>= fun m => psdRle f ch total (count + (257 - len)) m (get8 s).2

/-- a channel that is not in the file, stb_image.h:5970-5973, 5997-6000 -/
def psdFill (ch total : Nat) (m : Buf) : Outcome Buf := psdRun ch 0 total (if ch = 3 then 255 else 0) m

/-- a channel of 16 bits, stb_image.h:6009-6011 -/
def psdHigh (ch total : Nat) (m : Buf) (s : Src) : Outcome (Buf × Src) :=
  loop total (fun i q => store q.1 (4 * i + ch) (UInt8.ofNat ((get16 q.2).1 / 256)) >>= fun m => .ok (m, (get16 q.2).2)) (m, s)

/-- a channel, stb_image.h:5966-5981, 5989-6018 -/
def psdChannel (packed : Bool) (cc depth total ch : Nat) (m : Buf) (s : Src) : Outcome (Buf × Src) :=
  if cc ≤ ch then psdFill ch total m >>= fun m => .ok (m, s)
  else if packed then
    psdRle (s.buf.length + s.rest.length + total + 1) ch total 0 m s >>= fun r =>
      match r with
      | some q => .ok q
      | none => .throws "corrupt"
  else if depth = 16 then psdHigh ch total m s
  else psdCopy ch 0 total m s

/-- the conversion of a `float` to `unsigned char`, which is undefined if what is left of it without a fraction cannot be had -/
def psdByte (v : ℚ) : Outcome UInt8 := if -1 < v ∧ v < 256 then .ok (UInt8.ofNat ⌊v⌋.toNat) else .ub

/-- one colour without the white, stb_image.h:6036-6041 -/
def psdColour (fl : ℚ → ℚ) (a p : UInt8) : ℚ :=
  let ra := fl (1 / fl (a.toNat / 255))
  fl (fl (p.toNat * ra) + fl (255 * fl (1 - ra)))

/-- the white of a pixel, stb_image.h:6033-6042 -/
def psdMatte (fl : ℚ → ℚ) (i : Nat) (m : Buf) : Outcome Buf :=
  load m (4 * i + 3) >>= fun a =>
    if a ≠ 0 ∧ a ≠ 255 then
      loop 3 (fun c m => load m (4 * i + c) >>= fun p => psdByte (psdColour fl a p) >>= fun v => store m (4 * i + c) v) m
    else .ok m

/-- the variables of `stbi__psd_load` that come from the header -/
structure Psd where
  cc : Nat
  h : Nat
  w : Nat
  depth : Nat

/-- what comes behind the header, stb_image.h:5917-6061; `h * channelCount * 2` is an `int` -/
def psdBody (fl : ℚ → ℚ) (room : Nat) (t : Psd) (s : Src) : Outcome Image :=
  let s := skip (get32 s).2 (get32 s).1
  let s := skip (get32 s).2 (get32 s).1
  let s := skip (get32 s).2 (get32 s).1
  let (compression, s) := get16 s
  if 1 < compression then .throws "bad compression"
  else if 2 ^ 31 ≤ t.w ∨ 2 ^ 31 ≤ t.h ∨ 2 ^ 31 ≤ 4 * t.w ∨ 2 ^ 31 ≤ 4 * t.w * t.h then .throws "too large"
  else if room < 4 * t.w * t.h then .throws "outofmem"
  else if compression = 1 ∧ 2 ^ 31 ≤ t.h * t.cc * 2 then .ub
  else
    let s := if compression = 1 then skip s (t.h * t.cc * 2) else s
    loop 4 (fun ch q => psdChannel (compression == 1) t.cc t.depth (t.w * t.h) ch q.1 q.2) (fresh (4 * t.w * t.h), s) >>= fun q =>
      (if 4 ≤ t.cc then loop (t.w * t.h) (psdMatte fl) q.1 else .ok q.1) >>= fun m => .ok ⟨t.w, t.h, 4, 8, m⟩

/-- `stbi__psd_load`, stb_image.h:5864-5916 -/
def psdLoad (fl : ℚ → ℚ) (room : Nat) (s : Src) : Outcome Image :=
  let (id, s) := get32 s
  if id ≠ 0x38425053 then .throws "not PSD"
  else
    let (version, s) := get16 s
    if version ≠ 1 then .throws "wrong version"
    else
      let (cc, s) := get16 (skip s 6)
      if 16 < cc then .throws "wrong channel count"
      else
        let (h, s) := get32 s
        let (w, s) := get32 s
        let (depth, s) := get16 s
        if depth ≠ 8 ∧ depth ≠ 16 then .throws "unsupported bit depth"
        else
          let (mode, s) := get16 s
          if mode ≠ 3 then .throws "wrong color format" else psdBody fl room ⟨cc, h, w, depth⟩ s

/-- `stbi_load` of a file that begins with 8BPS, stb_image.h:1049-1093, 1166-1188, 1268-1288, 5818-5823: the formats that are tried before begin otherwise -/
def loadPsd (fl : ℚ → ℚ) (room : Nat) (file : List UInt8) : Outcome Image := psdLoad fl room (start file)

end Verif.Png
