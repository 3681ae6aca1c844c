import Verif.Png.PnmModel

/-!
# Model of reading PIC files in `ristra/io/catalyst/utils/stb_image.h`

`stbi__readval` to `stbi__pic_load` (lines 6102-6268), for a file that `stbi__pic_test` (6080-6095) takes, as `imageCompare` calls it: `req_comp` is 0, and the
variable behind `comp` has no value yet (catalystUtils.hpp:70-82).  A block of no bytes can be had.
-/

namespace Verif.Png

/-- bytes that are read and left out -/
def Ctx.pass : Nat → Ctx → Ctx
  | 0, s => s
  | n + 1, s => Ctx.pass n s.get.2

/-- `stbi__readval`, stb_image.h:6102-6114, for the channels of the list: the bytes with their channels, or nothing if the file ends.  They are stored by `picPut`; what was
stored before the file ended is not looked at again. -/
def picRead (channel : UInt8) : List Nat → Ctx → Option (List (Nat × UInt8) × Ctx)
  | [], s => some ([], s)
  | c :: cs, s =>
    if channel.toNat.testBit (7 - c) then
      if s.atEof then none else (picRead channel cs s.get.2).map fun r => ((c, s.get.1) :: r.1, r.2)
    else picRead channel cs s

/-- `stbi__copyval`, stb_image.h:6116-6123 -/
def picPut (at_ : Nat) : List (Nat × UInt8) → Buf → Outcome Buf
  | [], m => .ok m
  | (c, v) :: r, m => store m (at_ + c) v >>= fun m => picPut at_ r m

/-- one pixel, stb_image.h:6165-6167 -/
def picPixel (channel : UInt8) (at_ : Nat) (m : Buf) (s : Ctx) : Outcome (Buf × Ctx) :=
  match picRead channel [0, 1, 2, 3] s with
  | none => .throws "bad file"
  | some r => picPut at_ r.1 m >>= fun m => .ok (m, r.2)

/-- one value for `count` pixels, stb_image.h:6184-6187, 6209-6213 -/
def picRepeat (channel : UInt8) (at_ count : Nat) (m : Buf) (s : Ctx) : Outcome (Buf × Ctx) :=
  match picRead channel [0, 1, 2, 3] s with
  | none => .throws "bad file"
  | some r => loop count (fun i m => picPut (at_ + 4 * i) r.1 m) m >>= fun m => .ok (m, r.2)

/-- a row in runs, stb_image.h:6171-6192: `left` pixels from `at_` on; the rounds are bounded -/
def picPure (channel : UInt8) : Nat → Nat → Nat → Buf → Ctx → Outcome (Buf × Ctx)
  | 0, _, _, _, _ => .diverges
  | k + 1, at_, left, m, s =>
    if left = 0 then .ok (m, s)
    else if s.get.2.atEof then .throws "bad file"
    else
      let count := min s.get.1.toNat left
      picRepeat channel at_ count m s.get.2 >>= fun q => picPure channel k (at_ + 4 * count) (left - count) q.1 q.2

/-- a row in runs and copies, stb_image.h:6194-6225 -/
def picMixed (channel : UInt8) : Nat → Nat → Nat → Buf → Ctx → Outcome (Buf × Ctx)
  | 0, _, _, _, _ => .diverges
  | k + 1, at_, left, m, s =>
    if left = 0 then .ok (m, s)
    else
      let n := s.get.1.toNat
      let s := s.get.2
      if s.atEof then .throws "bad file"
      else if 128 ≤ n then
        let count := if n = 128 then s.get.1.toNat * 256 + s.get.2.get.1.toNat else n - 127
        let s := if n = 128 then s.get.2.get.2 else s
        if left < count then .throws "bad file"
        else picRepeat channel at_ count m s >>= fun q => picMixed channel k (at_ + 4 * count) (left - count) q.1 q.2
      else if left < n + 1 then .throws "bad file"
      else
        loop (n + 1) (fun i q => picPixel channel (at_ + 4 * i) q.1 q.2) (m, s) >>= fun q =>
          picMixed channel k (at_ + 4 * (n + 1)) (left - (n + 1)) q.1 q.2

/-- the `switch`, stb_image.h:6158-6226 -/
def picRow (rounds width : Nat) (type channel : UInt8) (at_ : Nat) (m : Buf) (s : Ctx) : Outcome (Buf × Ctx) :=
  if type = 0 then loop width (fun i q => picPixel channel (at_ + 4 * i) q.1 q.2) (m, s)
  else if type = 1 then picPure channel rounds at_ width m s
  else if type = 2 then picMixed channel rounds at_ width m s
  else .throws "bad format"

/-- a row, stb_image.h:6154-6227: type and channels of each packet -/
def picRows (rounds width at_ : Nat) : List (UInt8 × UInt8) → Buf → Ctx → Outcome (Buf × Ctx)
  | [], m, s => .ok (m, s)
  | (type, channel) :: ps, m, s => picRow rounds width type channel at_ m s >>= fun q => picRows rounds width at_ ps q.1 q.2

/-- the packets, stb_image.h:6131-6149: type and channels of each; nothing if one is refused -/
def picPackets : Nat → Ctx → Option (List (UInt8 × UInt8) × Ctx)
  | 0, _ => none
  | k + 1, s =>
    let chained := s.get.1
    let s := s.get.2
    let size := s.get.1
    let s := s.get.2
    let type := s.get.1
    let s := s.get.2
    let channel := s.get.1
    let s := s.get.2
    if s.atEof then none
    else if size ≠ 8 then none
    else if chained ≠ 0 then (picPackets k s).map fun r => ((type, channel) :: r.1, r.2)
    else some ([(type, channel)], s)

/-- `stbi__convert_format` from four to three channels, stb_image.h:1654-1696 -/
def picDrop (x y : Nat) (src : Buf) : Outcome Buf :=
  loop (x * y) (fun i m => loop 3 (fun c m => load src (4 * i + c) >>= fun v => store m (3 * i + c) v) m) (fresh (3 * x * y))

/-- the end of `stbi__pic_load`, stb_image.h:6254-6265, with `comp` as it was set: if the pixels could not be read there is no memory to convert from -/
def picEnd (room x y comp : Nat) (o : Outcome (Buf × Ctx)) : Outcome Image :=
  match o with
  | .ok q =>
    if comp = 4 then .ok ⟨x, y, 4, 8, q.1⟩
    else if room < 3 * x * y then .throws "outofmem"
    else picDrop x y q.1 >>= fun m => .ok ⟨x, y, 3, 8, m⟩
  | .throws e =>
    if comp = 4 then .throws e
    else if room < 3 * x * y then .throws "outofmem"
    else if x * y = 0 then .ok ⟨x, y, 3, 8, fresh 0⟩
    else .ub
  | .ub => .ub
  | .diverges => .diverges
  | .assertFail => .assertFail
  | .outOfRange => .outOfRange

/-- whether one of the packets has alpha, stb_image.h:6144, 6151 -/
def picComp (ps : List (UInt8 × UInt8)) : Nat := if ps.any (fun p => p.2.toNat.testBit 4) then 4 else 3

/-- `stbi__pic_load`, stb_image.h:6231-6268: `memset` on memory that could not be had, and the use of `comp` without a value if a packet is refused, have no defined result -/
def loadPic (rounds room : Nat) (file : List UInt8) : Outcome Image :=
  let s := Ctx.pass 92 (Ctx.start file)
  let x := s.get.1.toNat * 256 + s.get.2.get.1.toNat
  let s := s.get.2.get.2
  let y := s.get.1.toNat * 256 + s.get.2.get.1.toNat
  let s := s.get.2.get.2
  if s.atEof then .throws "bad file"
  else if 2 ^ 31 ≤ x * y * 4 then .throws "too large"
  else if room < x * y * 4 then .ub
  else
    match picPackets 10 (Ctx.pass 8 s) with
    | none => .ub
    | some (ps, s) =>
      picEnd room x y (picComp ps) (loop y (fun j q => picRows rounds x (j * x * 4) ps q.1 q.2) (⟨x * y * 4, fun _ => some 255⟩, s))

end Verif.Png
