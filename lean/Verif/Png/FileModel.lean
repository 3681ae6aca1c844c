import Verif.Png.Model

/-!
# Model of reading a PNG file in `ristra/io/catalyst/utils/stb_image.h`

Reading a file piece by piece (lines 744-830, 1499-1611), the chunks of a PNG file (4412-4434, 4877-5088) and what `stbi_load` makes of
the picture (1096-1111, 1166-1188, 1268-1288), for `req_comp` 0, which is what the callers in this library pass.  Errors when reading the file are
not modelled, and that the pieces are copied by `memcpy` from a null pointer if there are none of them is not counted.
-/

namespace Verif.Png

/-- a `stbi__context` on a file, stb_image.h:744-757: what is left in the buffer and what has not been read from the file -/
structure Src where
  buf : List UInt8
  rest : List UInt8

/-- `stbi__start_file`, stb_image.h:771-781, 807-810, 1499-1513 -/
def start (file : List UInt8) : Src := ⟨file.take 128, file.drop 128⟩

/-- `stbi__get8`, stb_image.h:1499-1524: 0 behind the end -/
def get8 (s : Src) : UInt8 × Src :=
  match s.buf with
  | b :: bs => (b, ⟨bs, s.rest⟩)
  | [] =>
    match s.rest.take 128 with
    | b :: bs => (b, ⟨bs, s.rest.drop 128⟩)
    | [] => (0, s)

/-- `stbi__get16be`, stb_image.h:1594-1598 -/
def get16 (s : Src) : Nat × Src :=
  let (a, s) := get8 s
  let (b, s) := get8 s
  (a.toNat * 256 + b.toNat, s)

/-- `stbi__get32be`, stb_image.h:1604-1608 -/
def get32 (s : Src) : Nat × Src :=
  let (a, s) := get16 s
  let (b, s) := get16 s
  (a * 65536 + b, s)

/-- `stbi__skip`, stb_image.h:1545-1561, the length of which is an `int`: a length of 2^31 or more becomes negative -/
def skip (s : Src) (n : Nat) : Src :=
  if 2 ^ 31 ≤ n then ⟨[], s.rest⟩
  else if s.buf.length < n then ⟨[], s.rest.drop (n - s.buf.length)⟩
  else ⟨s.buf.drop n, s.rest⟩

/-- `stbi__getn`, stb_image.h:1566-1588 -/
def getn (s : Src) (n : Nat) : Option (List UInt8 × Src) :=
  if s.buf.length < n then
    let got := s.rest.take (n - s.buf.length)
    if got.length = n - s.buf.length then some (s.buf ++ got, ⟨[], s.rest.drop (n - s.buf.length)⟩) else none
  else some (s.buf.take n, ⟨s.buf.drop n, s.rest⟩)

/-- `png_sig`, stb_image.h:4429 -/
def sig : List UInt8 := [137, 80, 78, 71, 13, 10, 26, 10]

/-- `stbi__check_png_header`, stb_image.h:4427-4434 -/
def checkSig : List UInt8 → Src → Option Src
  | [], s => some s
  | b :: bs, s => if (get8 s).1 = b then checkSig bs (get8 s).2 else none

/-- `STBI__PNG_TYPE`, stb_image.h:4877 -/
def typeOf (a b c d : Char) : Nat := a.toNat * 2 ^ 24 + b.toNat * 2 ^ 16 + c.toNat * 2 ^ 8 + d.toNat

/-- the variables of `stbi__parse_png_file`, stb_image.h:4881-4890, and what it sets in `s` and `z`; `tc` and `tc16` have the elements set
only -/
structure St where
  first : Bool := true
  pal : Nat → Option UInt8 := fun _ => none
  palN : Nat := 0
  palLen : Nat := 0
  trans : Bool := false
  tc : List Nat := []
  tc16 : List Nat := []
  interlace : Bool := false
  color : Nat := 0
  iphone : Bool := false
  x : Nat := 0
  y : Nat := 0
  n : Nat := 0
  depth : Nat := 0
  idata : Option (List UInt8) := none
  limit : Nat := 0

/-- `IHDR`, stb_image.h:4903-4930 -/
def header (st : St) (len : Nat) (s : Src) : Outcome (St × Src) :=
  if st.first = false then .throws "multiple IHDR"
  else if len ≠ 13 then .throws "bad IHDR len"
  else
    let (x, s) := get32 s
    if 2 ^ 24 < x then .throws "too large"
    else
      let (y, s) := get32 s
      if 2 ^ 24 < y then .throws "too large"
      else
        let (depth, s) := get8 s
        let depth := depth.toNat
        if depth ≠ 1 ∧ depth ≠ 2 ∧ depth ≠ 4 ∧ depth ≠ 8 ∧ depth ≠ 16 then .throws "1/2/4/8/16-bit only"
        else
          let (color, s) := get8 s
          let color := color.toNat
          if 6 < color then .throws "bad ctype"
          else if color = 3 ∧ depth = 16 then .throws "bad ctype"
          else if color ≠ 3 ∧ color % 2 = 1 then .throws "bad ctype"
          else
            let palN := if color = 3 then 3 else st.palN
            let (comp, s) := get8 s
            if comp ≠ 0 then .throws "bad comp method"
            else
              let (filter, s) := get8 s
              if filter ≠ 0 then .throws "bad filter method"
              else
                let (interlace, s) := get8 s
                if 1 < interlace.toNat then .throws "bad interlace method"
                else if x = 0 ∨ y = 0 then .throws "0-pixel image"
                else
                  let st := { st with first := false, x := x, y := y, depth := depth, color := color, palN := palN
                                      interlace := interlace.toNat == 1 }
                  if palN = 0 then
                    let n := (if color / 2 % 2 = 1 then 3 else 1) + (if color / 4 % 2 = 1 then 1 else 0)
                    if 2 ^ 30 / x / n < y then .throws "too large" else .ok ({ st with n := n }, s)
                  else if 2 ^ 30 / x / 4 < y then .throws "too large"
                  else .ok ({ st with n := 1 }, s)

/-- the entries of the palette from `i` on, stb_image.h:4937-4942 -/
def readPal : Nat → Nat → (Nat → Option UInt8) → Src → (Nat → Option UInt8) × Src
  | 0, _, pal, s => (pal, s)
  | k + 1, i, pal, s =>
    let (r, s) := get8 s
    let (g, s) := get8 s
    let (b, s) := get8 s
    readPal k (i + 1) (fun j => if j = i * 4 then some r else if j = i * 4 + 1 then some g else if j = i * 4 + 2 then some b
      else if j = i * 4 + 3 then some 255 else pal j) s

/-- `PLTE`, stb_image.h:4932-4944; the array has 1024 bytes, 4881 -/
def palette (st : St) (len : Nat) (s : Src) : Outcome (St × Src) :=
  if st.first then .throws "first not IHDR"
  else if 256 * 3 < len then .throws "invalid PLTE"
  else if len / 3 * 3 ≠ len then .throws "invalid PLTE"
  else if 1024 < len / 3 * 4 then .ub
  else
    let (pal, s) := readPal (len / 3) 0 st.pal s
    .ok ({ st with palLen := len / 3, pal := pal }, s)

/-- the alphas of the palette, stb_image.h:4954-4955 -/
def readAlpha : Nat → Nat → (Nat → Option UInt8) → Src → (Nat → Option UInt8) × Src
  | 0, _, pal, s => (pal, s)
  | k + 1, i, pal, s =>
    let (a, s) := get8 s
    readAlpha k (i + 1) (fun j => if j = i * 4 + 3 then some a else pal j) s

/-- some numbers of 16 bits, stb_image.h:4961, 4963 -/
def read16 : Nat → Src → List Nat × Src
  | 0, s => ([], s)
  | k + 1, s =>
    let (v, s) := get16 s
    let (vs, s) := read16 k s
    (v :: vs, s)

/-- `tRNS`, stb_image.h:4946-4967: what is multiplied is cut to 8 bits again -/
def transparent (st : St) (len : Nat) (s : Src) : Outcome (St × Src) :=
  if st.first then .throws "first not IHDR"
  else if st.idata.isSome then .throws "tRNS after IDAT"
  else if st.palN ≠ 0 then
    if st.palLen = 0 then .throws "tRNS before PLTE"
    else if st.palLen < len then .throws "bad tRNS len"
    else if 1024 < len * 4 then .ub
    else
      let (pal, s) := readAlpha len 0 st.pal s
      .ok ({ st with palN := 4, pal := pal }, s)
  else if st.n % 2 = 0 then .throws "tRNS with alpha"
  else if len ≠ st.n * 2 then .throws "bad tRNS len"
  else
    let (vs, s) := read16 st.n s
    if st.depth = 16 then .ok ({ st with trans := true, tc16 := vs }, s)
    else
      Inflate.tab depthScale st.depth >>= fun t => .ok ({ st with trans := true, tc := vs.map fun v => v % 256 * t % 256 }, s)

/-- the loop of stb_image.h:4978-4979 with numbers of 32 bits; `n` rounds at most -/
def grow (need : Nat) : Nat → Nat → Outcome Nat
  | 0, _ => .diverges
  | n + 1, limit => if limit < need then grow need n (limit * 2 % 2 ^ 32) else .ok limit

/-- the number of an `int` -/
def int32 (v : Nat) : Int := if v % 2 ^ 32 < 2 ^ 31 then (v % 2 ^ 32 : Nat) else (v % 2 ^ 32 : Nat) - 2 ^ 32

/-- `IDAT`, stb_image.h:4969-4987 -/
def imageData (rounds room : Nat) (st : St) (len : Nat) (s : Src) : Outcome (St × Src) :=
  if st.first then .throws "first not IHDR"
  else if st.palN ≠ 0 ∧ st.palLen = 0 then .throws "no PLTE"
  else
    let ioff := (st.idata.getD []).length
    if int32 (ioff + len) < int32 ioff then .throws ""
    else
      (if st.limit < (ioff + len) % 2 ^ 32 then
        grow ((ioff + len) % 2 ^ 32) rounds (if st.limit = 0 then (if 4096 < len then len else 4096) else st.limit) >>= fun limit =>
          if room < limit then .throws "outofmem"
          else .ok { st with limit := limit, idata := some (st.idata.getD []) }
       else .ok st) >>= fun st =>
        match getn s len with
        | none => .throws "outofdata"
        | some (bytes, s) => .ok ({ st with idata := st.idata.map (· ++ bytes) }, s)

/-- any other chunk, stb_image.h:5031-5046, and `CgBI`, stb_image.h:4899-4902 -/
def other (st : St) (type len : Nat) (s : Src) : Outcome (St × Src) :=
  if type = typeOf 'C' 'g' 'B' 'I' then .ok ({ st with iphone := true }, skip s len)
  else if st.first then .throws "first not IHDR"
  else if type / 2 ^ 29 % 2 = 0 then .throws "XXXX PNG chunk not known"
  else .ok (st, skip s len)

/-- a picture -/
structure Image where
  x : Nat
  y : Nat
  n : Nat
  depth : Nat
  out : Buf

/-- `IEND`, stb_image.h:4989-5029, 5057-5075 -/
def finish (rounds room : Nat) (st : St) : Outcome Image :=
  if st.first then .throws "first not IHDR"
  else
    match st.idata with
    | none => .throws "no IDAT"
    | some idata =>
      let rawLen := ((st.x * st.depth + 7) / 8 * st.y * st.n + st.y) % 2 ^ 32
      if 2 ^ 31 ≤ rawLen then .throws ""
      else
        Inflate.decodeMalloc rounds room (!st.iphone) rawLen idata >>= fun raw =>
          let outN := if st.trans then st.n + 1 else st.n
          createImage room raw st.n outN st.x st.y st.depth st.color st.interlace >>= fun m =>
            (if st.trans then
              if st.depth = 16 then transparency16 st.tc16 (st.x * st.y) outN m else transparency st.tc (st.x * st.y) outN m
             else .ok m) >>= fun m =>
              if st.palN ≠ 0 then
                expandPalette room st.pal (st.x * st.y) st.palN m >>= fun m => .ok ⟨st.x, st.y, st.palN, st.depth, m⟩
              else .ok ⟨st.x, st.y, outN, st.depth, m⟩

/-- the loop of `stbi__parse_png_file`, stb_image.h:4896-5050; `k` chunks at most -/
def chunks (rounds room : Nat) : Nat → St → Src → Outcome Image
  | 0, _, _ => .diverges
  | k + 1, st, s =>
    let (len, s) := get32 s
    let (type, s) := get32 s
    if type = typeOf 'I' 'E' 'N' 'D' then finish rounds room st
    else
      (if type = typeOf 'I' 'H' 'D' 'R' then header st len s
       else if type = typeOf 'P' 'L' 'T' 'E' then palette st len s
       else if type = typeOf 't' 'R' 'N' 'S' then transparent st len s
       else if type = typeOf 'I' 'D' 'A' 'T' then imageData rounds room st len s
       else other st type len s) >>= fun r => chunks rounds room k r.1 (get32 r.2).2

/-- `stbi__convert_16_to_8`, stb_image.h:1096-1111 -/
def convert16 (room : Nat) (i : Image) : Outcome Image :=
  if room < i.x * i.y * i.n then .throws "outofmem"
  else
    loop (i.x * i.y * i.n) (fun k m => load16 i.out k >>= fun v => store m k (UInt8.ofNat (v / 256))) (fresh (i.x * i.y * i.n)) >>= fun m =>
      .ok { i with depth := 8, out := m }

/-- `stbi_load` of a file that begins as a PNG file does, stb_image.h:1166-1188, 1268-1288, 5053-5088: no other format is tried.
`rounds` bounds the rounds of the loops that have no bound in the code -/
def loadPng (rounds room : Nat) (file : List UInt8) : Outcome Image :=
  match checkSig sig (start file) with
  | none => .throws "bad png sig"
  | some s =>
    chunks rounds room rounds {} s >>= fun i => if i.depth = 16 then convert16 room i else .ok { i with depth := 8 }

end Verif.Png
