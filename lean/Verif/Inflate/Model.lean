import Verif.Common.Outcome

/-!
# Model of the zlib decoder in `ristra/io/catalyst/utils/stb_image.h`

`stbi_zlib_decode_*` (lines 3927-4398).  `return stbi__err(..)` is the outcome `throws`: the call gives a null
pointer or -1.  The output buffer is the list of the bytes written so far and its size; a byte not yet
written is indeterminate, and reading it is undefined.  Arrays are functions, with the bounds checked
where they are indexed by something computed.  Memory can run out: nothing greater than `room` bytes can
be had.  `int` has 32 bits.
-/

namespace Verif.Inflate

/-- `a[i] = v` -/
def set {α : Type} (a : Nat → α) (i : Nat) (v : α) : Nat → α := fun j => if j = i then v else a j

/-- `stbi__zhuffman`, stb_image.h:3942-3950; `size` and `value` are not set to begin with -/
structure Huff where
  fast : Nat → Nat := fun _ => 0
  firstcode : Nat → Nat := fun _ => 0
  maxcode : Nat → Nat := fun _ => 0
  firstsymbol : Nat → Nat := fun _ => 0
  size : Nat → Option Nat := fun _ => none
  value : Nat → Option Nat := fun _ => none

/-- `stbi__bitreverse16`, stb_image.h:3952-3959 -/
def bitreverse16 (n : Nat) : Nat :=
  let n := ((n &&& 0xAAAA) >>> 1) ||| ((n &&& 0x5555) <<< 1)
  let n := ((n &&& 0xCCCC) >>> 2) ||| ((n &&& 0x3333) <<< 2)
  let n := ((n &&& 0xF0F0) >>> 4) ||| ((n &&& 0x0F0F) <<< 4)
  ((n &&& 0xFF00) >>> 8) ||| ((n &&& 0x00FF) <<< 8)

/-- `stbi__bit_reverse`, stb_image.h:3961-3967; `bits` is 16 or at most 9 in all calls -/
def bitReverse (v bits : Nat) : Nat := bitreverse16 v >>> (16 - bits)

/-- the loop of stb_image.h:3984-3995: from the length `i` on, `n` lengths to go; gives `next_code` too, which
begins as `firstcode` -/
def rows (cnt : Nat → Nat) : Nat → Nat → Nat → Nat → Huff × (Nat → Nat) → Outcome (Huff × (Nat → Nat))
  | 0, _, _, _, h => .ok h
  | n + 1, i, code, k, (h, next) =>
    if cnt i ≠ 0 ∧ 2 ^ i ≤ code + cnt i - 1 then .throws "bad codelengths"
    else rows cnt n (i + 1) ((code + cnt i) <<< 1) (k + cnt i)
      ({ h with
          firstcode := set h.firstcode i (code % 65536)
          firstsymbol := set h.firstsymbol i (k % 65536)
          maxcode := set h.maxcode i ((code + cnt i) <<< (16 - i)) }, set next i code)

/-- the loop of stb_image.h:4006-4009; at most `n` rounds -/
def fillFast (v step : Nat) : Nat → Nat → (Nat → Nat) → (Nat → Nat)
  | 0, _, f => f
  | n + 1, j, f => if j < 512 then fillFast v step n (j + step) (set f j v) else f

/-- the loop of stb_image.h:3997-4013, from the symbol `i` on -/
def assign : List Nat → Nat → Huff → (Nat → Nat) → Outcome Huff
  | [], _, h, _ => .ok h
  | s :: ss, i, h, next =>
    if s = 0 then assign ss (i + 1) h next
    else
      let c := next s + h.firstsymbol s - h.firstcode s
      if 288 ≤ c then .ub
      else
        assign ss (i + 1)
          { h with
            size := set h.size c (some (s % 256))
            value := set h.value c (some (i % 65536))
            fast := if s ≤ 9 then fillFast (((s <<< 9) ||| i) % 65536) (1 <<< s) 512 (bitReverse (next s) s) h.fast
              else h.fast }
          (set next s (next s + 1))

/-- `sizes` after stb_image.h:3974-3978 -/
def counts (sizelist : List Nat) : Nat → Nat := fun i => if i = 0 then 0 else sizelist.count i

/-- `stbi__zbuild_huffman`, stb_image.h:3969-4014; a length above 15 is beyond the arrays -/
def build (sizelist : List Nat) : Outcome Huff :=
  if sizelist.any (15 < ·) then .ub
  else if (List.range 16).any (fun i => 1 ≤ i && 2 ^ i < counts sizelist i) then .throws "bad sizes"
  else
    rows (counts sizelist) 15 1 0 0 ({}, fun _ => 0) >>= fun r =>
      assign sizelist 0 { r.1 with maxcode := set r.1.maxcode 16 0x10000 } r.2

/-- `stbi__zbuf`, stb_image.h:4022-4034: the bytes from `zbuffer` to `zbuffer_end`; `num_bits` and `code_buffer`; the
bytes from `zout_start` to `zout`; the distance of `zout_end` from `zout_start`; `z_expandable` -/
structure ZBuf where
  rest : List UInt8
  num : Nat := 0
  code : Nat := 0
  out : List UInt8 := []
  cap : Nat
  exp : Bool
  room : Nat

/-- `stbi__zget8`, stb_image.h:4036-4040 -/
def get8 (z : ZBuf) : UInt8 × ZBuf :=
  match z.rest with
  | [] => (0, z)
  | b :: r => (b, { z with rest := r })

/-- the loop of `stbi__fill_bits`, stb_image.h:4044-4048; at most `n` rounds -/
def fillLoop : Nat → ZBuf → Outcome ZBuf
  | 0, _ => .diverges
  | n + 1, z =>
    if 32 ≤ z.num then .ub
    else if 2 ^ z.num ≤ z.code then .assertFail
    else
      let b := get8 z
      let z' : ZBuf := { b.2 with code := z.code ||| (b.1.toNat <<< z.num) % 2 ^ 32, num := z.num + 8 }
      if z'.num ≤ 24 then fillLoop n z' else .ok z'

/-- `stbi__fill_bits`, stb_image.h:4042-4049: each round adds 8 bits, so there are at most 4 -/
def fillBits (z : ZBuf) : Outcome ZBuf := fillLoop 4 z

/-- `stbi__zreceive`, stb_image.h:4051-4059 -/
def receive (n : Nat) (z : ZBuf) : Outcome (Nat × ZBuf) :=
  (if z.num < n then fillBits z else .ok z) >>= fun z =>
    .ok (z.code &&& ((1 <<< n) - 1), { z with code := z.code >>> n, num := z.num - n })

/-- the search of stb_image.h:4067-4069 from the length `s` on; there are `n` entries left, and beyond them the array ends -/
def findLen (maxcode : Nat → Nat) (k : Nat) : Nat → Nat → Outcome Nat
  | 0, _ => .ub
  | n + 1, s => if k < maxcode s then .ok s else findLen maxcode k n (s + 1)

/-- `stbi__zhuffman_decode_slowpath`, stb_image.h:4061-4077; -1 is `none` -/
def slowpath (h : Huff) (z : ZBuf) : Outcome (Option Nat × ZBuf) :=
  let k := bitReverse z.code 16
  findLen h.maxcode k 7 10 >>= fun s =>
    if s = 16 then .ok (none, z)
    else
      let b := (k >>> (16 - s)) + h.firstsymbol s - h.firstcode s
      if 288 ≤ b then .ub
      else
        match h.size b, h.value b with
        | some t, some v =>
          if t = s then .ok (some v, { z with code := z.code >>> s, num := z.num - s }) else .assertFail
        | _, _ => .ub

/-- `stbi__zhuffman_decode`, stb_image.h:4079-4091 -/
def decode (h : Huff) (z : ZBuf) : Outcome (Option Nat × ZBuf) :=
  (if z.num < 16 then fillBits z else .ok z) >>= fun z =>
    let b := h.fast (z.code &&& 511)
    if b ≠ 0 then .ok (some (b &&& 511), { z with code := z.code >>> (b >>> 9), num := z.num - (b >>> 9) })
    else slowpath h z

/-- the loop of stb_image.h:4101-4102; from 1 on, 31 rounds are enough for an overflow, which is undefined -/
def grow (need : Nat) : Nat → Nat → Outcome Nat
  | 0, _ => .diverges
  | n + 1, limit => if limit < need then (if limit * 2 < 2 ^ 31 then grow need n (limit * 2) else .ub) else .ok limit

/-- `stbi__zexpand`, stb_image.h:4093-4110, with `zout` behind what is written; if the size is 0 the loop never
ends -/
def expand (n : Nat) (z : ZBuf) : Outcome ZBuf :=
  if z.exp = false then .throws "output buffer limit"
  else if 2 ^ 31 ≤ z.out.length + n then .ub
  else
    grow (z.out.length + n) 32 z.cap >>= fun limit =>
      if limit ≤ z.room then .ok { z with cap := limit } else .throws "outofmem"

/-- room for `n` more bytes, stb_image.h:4133-4136, 4152-4155, 4238-4239 -/
def reserve (n : Nat) (z : ZBuf) : Outcome ZBuf :=
  if z.cap < z.out.length + n then expand n z else .ok z

/-- `stbi__zlength_base`, stb_image.h:4112-4115 -/
def lengthBase : List Nat := [3,4,5,6,7,8,9,10,11,13, 15,17,19,23,27,31,35,43,51,59, 67,83,99,115,131,163,195,227,258,0,0]

/-- `stbi__zlength_extra`, stb_image.h:4117-4118 -/
def lengthExtra : List Nat := [0,0,0,0,0,0,0,0,1,1,1,1,2,2,2,2,3,3,3,3,4,4,4,4,5,5,5,5,0,0,0]

/-- `stbi__zdist_base`, stb_image.h:4120-4121 -/
def distBase : List Nat := [1,2,3,4,5,7,9,13,17,25,33,49,65,97,129,193,
  257,385,513,769,1025,1537,2049,3073,4097,6145,8193,12289,16385,24577,0,0]

/-- `stbi__zdist_extra`, stb_image.h:4123-4124 -/
def distExtra : List Nat := [0,0,0,0,1,1,2,2,3,3,4,4,5,5,6,6,7,7,8,8,9,9,10,10,11,11,12,12,13,13,0,0]

/-- an entry of one of these tables -/
def tab (t : List Nat) (i : Nat) : Outcome Nat :=
  match t[i]? with
  | some v => .ok v
  | none => .ub

/-- the base and the extra bits of a length or distance, stb_image.h:4144-4146, 4150-4151 -/
def withExtra (base extra : List Nat) (i : Nat) (z : ZBuf) : Outcome (Nat × ZBuf) :=
  tab base i >>= fun b => tab extra i >>= fun e =>
    if e ≠ 0 then receive e z >>= fun r => .ok (b + r.1, r.2) else .ok (b, z)

/-- the loop of stb_image.h:4161: `*zout++ = *p++`, `n` times -/
def copyBytes (dist : Nat) : Nat → List UInt8 → Outcome (List UInt8)
  | 0, out => .ok out
  | n + 1, out =>
    match out[out.length - dist]? with
    | some b => copyBytes dist n (out ++ [b])
    | none => .ub

/-- the copying of stb_image.h:4156-4162; the byte copied for the distance 1 is read even if the length is 0 -/
def copy (dist len : Nat) (out : List UInt8) : Outcome (List UInt8) :=
  if dist = 1 then
    match out[out.length - 1]? with
    | some v => .ok (out ++ List.replicate len v)
    | none => .ub
  else copyBytes dist len out

/-- `stbi__parse_huffman_block`, stb_image.h:4126-4166; at most `n` symbols -/
def huffmanBlock (hl hd : Huff) : Nat → ZBuf → Outcome ZBuf
  | 0, _ => .diverges
  | n + 1, z =>
    decode hl z >>= fun r =>
      match r.1 with
      | none => .throws "bad huffman code"
      | some c =>
        if c < 256 then
          reserve 1 r.2 >>= fun z => huffmanBlock hl hd n { z with out := z.out ++ [UInt8.ofNat c] }
        else if c = 256 then .ok r.2
        else
          withExtra lengthBase lengthExtra (c - 257) r.2 >>= fun l =>
            decode hd l.2 >>= fun d =>
              match d.1 with
              | none => .throws "bad huffman code"
              | some c =>
                withExtra distBase distExtra c d.2 >>= fun e =>
                  if e.2.out.length < e.1 then .throws "bad dist"
                  else
                    reserve l.1 e.2 >>= fun z =>
                      copy e.1 l.1 z.out >>= fun out => huffmanBlock hl hd n { z with out := out }

/-- `length_dezigzag`, stb_image.h:4170 -/
def dezigzag : List Nat := [16,17,18,0,8,7,9,6,10,5,11,4,12,3,13,2,14,1,15]

/-- the loop of stb_image.h:4182-4185, from `i` on, `n` rounds to go -/
def readSizes : Nat → Nat → List Nat → ZBuf → Outcome (List Nat × ZBuf)
  | 0, _, sizes, z => .ok (sizes, z)
  | n + 1, i, sizes, z =>
    receive 3 z >>= fun r => tab dezigzag i >>= fun j => readSizes n (i + 1) (sizes.set j r.1) r.2

/-- writing `lencodes`, which has 455 elements (stb_image.h:4172) -/
def put (acc vs : List Nat) : Outcome (List Nat) := if acc.length + vs.length ≤ 455 then .ok (acc ++ vs) else .ub

/-- a run of a length, stb_image.h:4208-4210 -/
def putRun (ntot fill c : Nat) (acc : List Nat) : Outcome (List Nat) :=
  if ntot - acc.length < c then .throws "bad codelengths" else put acc (List.replicate c fill)

/-- the loop of stb_image.h:4188-4212; at most `k` rounds; `acc` are the `n` elements of `lencodes` that are set -/
def readCodes (h : Huff) (ntot : Nat) : Nat → List Nat → ZBuf → Outcome (List Nat × ZBuf)
  | 0, _, _ => .diverges
  | k + 1, acc, z =>
    if acc.length < ntot then
      decode h z >>= fun r =>
        match r.1 with
        | none => .throws "bad codelengths"
        | some c =>
          if 19 ≤ c then .throws "bad codelengths"
          else if c < 16 then put acc [c] >>= fun acc => readCodes h ntot k acc r.2
          else if c = 16 then
            receive 2 r.2 >>= fun q =>
              match acc.getLast? with
              | none => .throws "bad codelengths"
              | some f => putRun ntot f (q.1 + 3) acc >>= fun acc => readCodes h ntot k acc q.2
          else if c = 17 then
            receive 3 r.2 >>= fun q => putRun ntot 0 (q.1 + 3) acc >>= fun acc => readCodes h ntot k acc q.2
          else
            receive 7 r.2 >>= fun q => putRun ntot 0 (q.1 + 11) acc >>= fun acc => readCodes h ntot k acc q.2
    else if acc.length = ntot then .ok (acc, z) else .throws "bad codelengths"

/-- `stbi__compute_huffman_codes`, stb_image.h:4168-4215; every round of the second loop sets an element, and there are
at most 320 -/
def computeCodes (z : ZBuf) : Outcome (Huff × Huff × ZBuf) :=
  receive 5 z >>= fun a => receive 5 a.2 >>= fun b => receive 4 b.2 >>= fun c =>
    let hlit := a.1 + 257
    let hdist := b.1 + 1
    readSizes (c.1 + 4) 0 (List.replicate 19 0) c.2 >>= fun s =>
      build s.1 >>= fun h =>
        readCodes h (hlit + hdist) 321 [] s.2 >>= fun l =>
          build (l.1.take hlit) >>= fun hl => build (l.1.drop hlit) >>= fun hd => .ok (hl, hd, l.2)

/-- the loop of stb_image.h:4225-4229: `n` elements of `header` are left -/
def drain : Nat → List UInt8 → ZBuf → Outcome (List UInt8 × ZBuf)
  | n, hd, z =>
    if z.num = 0 then .ok (hd, z)
    else
      match n with
      | 0 => .ub
      | n + 1 =>
        if z.num < 8 then .assertFail
        else drain n (hd ++ [UInt8.ofNat (z.code &&& 255)]) { z with code := z.code >>> 8, num := z.num - 8 }

/-- the loop of stb_image.h:4232-4233, `n` elements to go -/
def fillHeader : Nat → List UInt8 → ZBuf → List UInt8 × ZBuf
  | 0, hd, z => (hd, z)
  | n + 1, hd, z => fillHeader n (hd ++ [(get8 z).1]) (get8 z).2

/-- `stbi__parse_uncompressed_block`, stb_image.h:4217-4244 -/
def storedBlock (z : ZBuf) : Outcome ZBuf :=
  (if z.num &&& 7 ≠ 0 then receive (z.num &&& 7) z >>= fun r => .ok r.2 else .ok z) >>= fun z =>
    drain 4 [] z >>= fun r =>
      let q := fillHeader (4 - r.1.length) r.1 r.2
      match q.1 with
      | [h0, h1, h2, h3] =>
        let len := h1.toNat * 256 + h0.toNat
        let nlen := h3.toNat * 256 + h2.toNat
        if nlen ≠ len ^^^ 0xffff then .throws "zlib corrupt"
        else if q.2.rest.length < len then .throws "read past buffer"
        else
          reserve len q.2 >>= fun z => .ok { z with out := z.out ++ z.rest.take len, rest := z.rest.drop len }
      | _ => .ub

/-- `stbi__parse_zlib_header`, stb_image.h:4246-4257 -/
def zlibHeader (z : ZBuf) : Outcome ZBuf :=
  let a := get8 z
  let b := get8 a.2
  let cmf := a.1.toNat
  let flg := b.1.toNat
  if (cmf * 256 + flg) % 31 ≠ 0 then .throws "bad zlib header"
  else if flg &&& 32 ≠ 0 then .throws "no preset dict"
  else if cmf &&& 15 ≠ 8 then .throws "bad compression"
  else .ok b.2

/-- `stbi__zdefault_length`, stb_image.h:4259-4270 -/
def defaultLength : List Nat :=
  List.replicate 144 8 ++ List.replicate 112 9 ++ List.replicate 24 7 ++ List.replicate 8 8

/-- `stbi__zdefault_distance`, stb_image.h:4271-4274 -/
def defaultDistance : List Nat := List.replicate 32 5

/-- one block after its three bits, stb_image.h:4299-4312; at most `n` symbols -/
def block (n type : Nat) (z : ZBuf) : Outcome ZBuf :=
  if type = 0 then storedBlock z
  else if type = 3 then .throws ""
  else if type = 1 then
    build defaultLength >>= fun hl => build defaultDistance >>= fun hd => huffmanBlock hl hd n z
  else computeCodes z >>= fun r => huffmanBlock r.1 r.2.1 n r.2.2

/-- the loop of stb_image.h:4295-4313; at most `k` blocks -/
def blocks (n : Nat) : Nat → ZBuf → Outcome ZBuf
  | 0, _ => .diverges
  | k + 1, z =>
    receive 1 z >>= fun f => receive 2 f.2 >>= fun t =>
      block n t.1 t.2 >>= fun z => if f.1 = 0 then blocks n k z else .ok z

/-- `stbi__parse_zlib`, stb_image.h:4288-4314 -/
def parseZlib (n : Nat) (header : Bool) (z : ZBuf) : Outcome ZBuf :=
  (if header then zlibHeader z else .ok z) >>= fun z => blocks n n { z with num := 0, code := 0 }

/-- `stbi_zlib_decode_malloc_guesssize_headerflag`, stb_image.h:4347-4361; with the header also
`stbi_zlib_decode_malloc_guesssize` (4326-4340) and, for 16384 bytes, `stbi_zlib_decode_malloc` (4342-4345); without,
`stbi_zlib_decode_noheader_malloc` (4374-4388): the bytes given back, and a null pointer is `throws` -/
def decodeMalloc (n room : Nat) (header : Bool) (initial : Nat) (inp : List UInt8) : Outcome (List UInt8) :=
  if room < initial then .throws ""
  else parseZlib n header { rest := inp, cap := initial, exp := true, room := room } >>= fun z => .ok z.out

/-- `stbi_zlib_decode_buffer` and `stbi_zlib_decode_noheader_buffer`, stb_image.h:4363-4372, 4390-4399: the bytes written, the
number of which is given back; -1 is `throws` -/
def decodeBuffer (n : Nat) (header : Bool) (olen : Nat) (inp : List UInt8) : Outcome (List UInt8) :=
  parseZlib n header { rest := inp, cap := olen, exp := false, room := 0 } >>= fun z => .ok z.out

end Verif.Inflate
