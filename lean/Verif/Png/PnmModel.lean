import Verif.Png.CompareModel

/-!
# Model of reading PGM and PPM files in `ristra/io/catalyst/utils/stb_image.h`

`stbi__pnm_test` to `stbi__pnm_info` (lines 7190-7299), for a file that begins with `P5` or `P6`, as `stbi_load` calls them with `req_comp` 0, and
the comparison of two such files.  Here it matters when the end of the file is noticed, so the state of the reader has what `feof` says and
`read_from_callbacks`.  Errors when reading the file are not modelled, and a block of no bytes can be had.
-/

namespace Verif.Png

/-- a `stbi__context` on a file, stb_image.h:744-757: what is left in the buffer, what has not been read from the file, `feof`, and
`read_from_callbacks` -/
structure Ctx where
  buf : List UInt8
  rest : List UInt8
  eof : Bool
  more : Bool

/-- `stbi__refill_buffer`, stb_image.h:1499-1513, with `stbi__stdio_read`, 785-788: `fread` sets the end-of-file indicator if it gets less than
it is asked for -/
def Ctx.refill (s : Ctx) : Ctx :=
  match s.rest.take 128 with
  | [] => ⟨[0], [], true, false⟩
  | b :: bs => ⟨b :: bs, s.rest.drop 128, s.eof || decide ((b :: bs).length < 128), s.more⟩

/-- `stbi__start_file`, stb_image.h:771-781, 807-810 -/
def Ctx.start (file : List UInt8) : Ctx := Ctx.refill ⟨[], file, false, true⟩

/-- `stbi__get8`, stb_image.h:1515-1524 -/
def Ctx.get (s : Ctx) : UInt8 × Ctx :=
  match s.buf with
  | b :: bs => (b, { s with buf := bs })
  | [] => if s.more then (s.refill.buf.headD 0, { s.refill with buf := s.refill.buf.tail }) else (0, s)

/-- `stbi__at_eof`, stb_image.h:1529-1539 -/
def Ctx.atEof (s : Ctx) : Bool :=
  if s.eof then (if s.more then s.buf.isEmpty else true) else false

/-- `stbi__getn` into a fresh block of `n` bytes, stb_image.h:1566-1588, the result of which is not looked at: what is there is copied -/
def Ctx.fill (s : Ctx) (n : Nat) : Buf :=
  if s.buf.length < n then ⟨n, fun i => (s.buf ++ s.rest.take (n - s.buf.length))[i]?⟩
  else ⟨n, fun i => (s.buf.take n)[i]?⟩

/-- `stbi__pnm_isspace`, stb_image.h:7228-7231 -/
def pnmSpace (c : UInt8) : Bool := c == 32 || c == 9 || c == 10 || c == 11 || c == 12 || c == 13

/-- `stbi__pnm_isdigit`, stb_image.h:7247-7250 -/
def pnmDigit (c : UInt8) : Bool := decide (48 ≤ c.toNat ∧ c.toNat ≤ 57)

/-- the first loop of `stbi__pnm_skip_whitespace`, stb_image.h:7236-7237; the rounds of this and the other loops are bounded -/
def skipSpaces : Nat → UInt8 → Ctx → Outcome (UInt8 × Ctx)
  | 0, _, _ => .diverges
  | k + 1, c, s => if !s.atEof && pnmSpace c then skipSpaces k s.get.1 s.get.2 else .ok (c, s)

/-- the second loop of `stbi__pnm_skip_whitespace`, stb_image.h:7242-7243 -/
def skipLine : Nat → UInt8 → Ctx → Outcome (UInt8 × Ctx)
  | 0, _, _ => .diverges
  | k + 1, c, s => if !s.atEof && c != 10 && c != 13 then skipLine k s.get.1 s.get.2 else .ok (c, s)

/-- `stbi__pnm_skip_whitespace`, stb_image.h:7233-7245 -/
def skipBlank (rounds : Nat) : Nat → UInt8 → Ctx → Outcome (UInt8 × Ctx)
  | 0, _, _ => .diverges
  | k + 1, c, s =>
    skipSpaces rounds c s >>= fun r =>
      if r.2.atEof || r.1 != 35 then .ok r
      else skipLine rounds r.1 r.2 >>= fun r => skipBlank rounds k r.1 r.2

/-- `stbi__pnm_getinteger`, stb_image.h:7252-7262, from its loop on: `int` numbers overflow -/
def pnmInteger : Nat → Nat → UInt8 → Ctx → Outcome (Nat × UInt8 × Ctx)
  | 0, _, _, _ => .diverges
  | k + 1, value, c, s =>
    if !s.atEof && pnmDigit c then
      let value := value * 10 + (c.toNat - 48)
      if 2 ^ 31 ≤ value then .ub else pnmInteger k value s.get.1 s.get.2
    else .ok (value, c, s)

/-- one number and the white space before it, stb_image.h:7286-7294 -/
def pnmNumber (rounds : Nat) (c : UInt8) (s : Ctx) : Outcome (Nat × UInt8 × Ctx) :=
  skipBlank rounds rounds c s >>= fun r => pnmInteger rounds 0 r.1 r.2

/-- `stbi__pnm_info`, stb_image.h:7264-7300, at the start of a file: the size, the number of channels, and where the pixels begin -/
def pnmInfo (rounds : Nat) (s : Ctx) : Outcome (Nat × Nat × Nat × Ctx) :=
  let (p, s) := s.get
  let (t, s) := s.get
  if p ≠ 80 ∨ (t ≠ 53 ∧ t ≠ 54) then .throws ""
  else
    let comp := if t = 54 then 3 else 1
    let (c, s) := s.get
    pnmNumber rounds c s >>= fun r =>
      let x := r.1
      pnmNumber rounds r.2.1 r.2.2 >>= fun r =>
        let y := r.1
        pnmNumber rounds r.2.1 r.2.2 >>= fun r =>
          if 255 < r.1 then .throws "max value > 255" else .ok (x, y, comp, r.2.2)

/-- `stbi_load` of a file that begins with `P5` or `P6`, stb_image.h:1049-1093, 1166-1188, 1268-1288, 7190-7226.  The formats before this one are
told by their first byte, except one that looks at four (5818-5823): reading behind the end of a file that has no four bytes overwrites the first one
(1508), and then no format is found. -/
def loadPnm (rounds room : Nat) (file : List UInt8) : Outcome Image :=
  if file.length < 4 then .throws "unknown image type"
  else
    pnmInfo rounds (Ctx.start file) >>= fun r =>
      let (x, y, n, s) := r
      if 2 ^ 31 ≤ n * x ∨ 2 ^ 31 ≤ n * x * y then .throws "too large"
      else if room < n * x * y then .throws "outofmem"
      else .ok ⟨x, y, n, 8, s.fill (n * x * y)⟩

/-- `imageCompare`, catalystUtils.hpp:70-128, for the bytes of two files that begin so; `fl` rounds to `float`.  If there are no pixels the quotient is not a
number, and not greater than anything -/
def pnmCompare (fl : ℚ → ℚ) (rounds room : Nat) (fileA fileB : List UInt8) : Outcome Bool :=
  tried (loadPnm rounds room fileA) >>= fun imgA =>
    match imgA with
    | none => .ok false
    | some a =>
      tried (loadPnm rounds room fileB) >>= fun imgB =>
        match imgB with
        | none => .ok false
        | some b =>
          if a.x ≠ b.x then .ok false
          else if a.y ≠ b.y then .ok false
          else if a.n ≠ b.n then .ok false
          else if 2 ^ 31 ≤ a.x * a.y ∨ 2 ^ 31 ≤ a.x * a.y * a.n then .ub
          else
            countLoop a.out b.out (a.x * a.y * a.n) >>= fun numDiff =>
              .ok (if a.x * a.y * a.n = 0 then true else if fl (fl numDiff / fl (a.x * a.y * a.n : Nat)) > 2 / 100 then false else true)

end Verif.Png
