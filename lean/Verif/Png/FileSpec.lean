import Verif.Png.Spec
import Verif.Inflate.Spec

/-!
# PNG files

From the PNG specification (ISO/IEC 15948): chunks, the order they come in, and what colour a pixel has.  Nothing here is taken from
the decoder.  The checks at the end of the chunks may be anything.
-/

namespace Verif.Png

/-- a number of 4 bytes, the highest first -/
def be32 (v : Nat) : List UInt8 := [UInt8.ofNat (v / 2 ^ 24), UInt8.ofNat (v / 2 ^ 16), UInt8.ofNat (v / 2 ^ 8), UInt8.ofNat v]

/-- a number of 2 bytes, the highest first -/
def be16 (v : Nat) : List UInt8 := [UInt8.ofNat (v / 2 ^ 8), UInt8.ofNat v]

/-- four letters -/
def letters (a b c d : Char) : List UInt8 := [a, b, c, d].map fun l => UInt8.ofNat l.toNat

/-- a chunk (section 5.3) -/
structure Chunk where
  type : List UInt8
  data : List UInt8
  crc : List UInt8

/-- the bytes of a chunk -/
def Chunk.bytes (c : Chunk) : List UInt8 := be32 c.data.length ++ c.type ++ c.data ++ c.crc

/-- lengths are less than 2^31 -/
def Chunk.Fine (c : Chunk) : Prop := c.type.length = 4 ∧ c.crc.length = 4 ∧ c.data.length < 2 ^ 31

/-- a chunk that may be left out of account (section 5.4: the first letter is a small one) -/
def Chunk.Extra (c : Chunk) : Prop := (c.type.getD 0 0).toNat / 32 % 2 = 1 ∧ c.type ≠ letters 't' 'R' 'N' 'S'

/-- what is said about a picture: its size, the bits of a sample, the type of colour, whether it is interlaced, the palette, and what is
transparent -/
structure Picture where
  W : Nat
  H : Nat
  d : Nat
  color : Nat
  interlaced : Bool
  entries : Option (List (UInt8 × UInt8 × UInt8))
  clear : Option (List Nat)

/-- the samples of a pixel (section 6.1) -/
def Picture.chan (p : Picture) : Nat :=
  match p.color with
  | 2 => 3
  | 4 => 2
  | 6 => 4
  | _ => 1

/-- what is allowed (sections 11.2.2, 11.2.3, 11.3.2) -/
structure Picture.Allowed (p : Picture) : Prop where
  size : 0 < p.W ∧ 0 < p.H
  colors : (p.color = 0 ∧ (p.d = 1 ∨ p.d = 2 ∨ p.d = 4 ∨ p.d = 8 ∨ p.d = 16)) ∨ (p.color = 3 ∧ (p.d = 1 ∨ p.d = 2 ∨ p.d = 4 ∨ p.d = 8)) ∨
    ((p.color = 2 ∨ p.color = 4 ∨ p.color = 6) ∧ (p.d = 8 ∨ p.d = 16))
  entries : ∀ e, p.entries = some e → 0 < e.length ∧ e.length ≤ 256
  palette : p.color = 3 → p.entries.isSome
  clear : ∀ k, p.clear = some k →
    (p.color = 0 ∧ k.length = 1 ∧ ∀ v ∈ k, v < 2 ^ p.d) ∨ (p.color = 2 ∧ k.length = 3 ∧ ∀ v ∈ k, v < 2 ^ p.d) ∨
      (p.color = 3 ∧ k.length ≤ (p.entries.getD []).length ∧ ∀ v ∈ k, v < 256)

/-- the data of the header (section 11.2.2) -/
def Picture.ihdr (p : Picture) : List UInt8 :=
  be32 p.W ++ be32 p.H ++ [UInt8.ofNat p.d, UInt8.ofNat p.color, 0, 0, if p.interlaced then 1 else 0]

/-- the data of the palette (section 11.2.3) -/
def plteData (e : List (UInt8 × UInt8 × UInt8)) : List UInt8 := e.flatMap fun t => [t.1, t.2.1, t.2.2]

/-- the data that say what is transparent (section 11.3.2) -/
def Picture.trnsData (p : Picture) (k : List Nat) : List UInt8 := if p.color = 3 then k.map UInt8.ofNat else k.flatMap be16

/-- a PNG file (section 5.6): the header, the palette, what is transparent, the compressed data in any number of pieces, the end, and any other
chunks between; behind the end there may be anything -/
def IsPng (p : Picture) (z file : List UInt8) : Prop :=
  ∃ (ih ie : Chunk) (a1 pl a2 tr a3 ids a4 : List Chunk) (tail : List UInt8),
    file = [137, 80, 78, 71, 13, 10, 26, 10] ++ ((ih :: (a1 ++ pl ++ a2 ++ tr ++ a3 ++ ids ++ a4) ++ [ie]).flatMap Chunk.bytes) ++ tail ∧
    (∀ c ∈ ih :: (a1 ++ pl ++ a2 ++ tr ++ a3 ++ ids ++ a4) ++ [ie], c.Fine) ∧
    (∀ c ∈ a1 ++ a2 ++ a3 ++ a4, c.Extra) ∧
    (ih.type = letters 'I' 'H' 'D' 'R' ∧ ih.data = p.ihdr) ∧
    (match p.entries with
      | none => pl = []
      | some e => ∃ c, pl = [c] ∧ c.type = letters 'P' 'L' 'T' 'E' ∧ c.data = plteData e) ∧
    (match p.clear with
      | none => tr = []
      | some k => ∃ c, tr = [c] ∧ c.type = letters 't' 'R' 'N' 'S' ∧ c.data = p.trnsData k) ∧
    (∀ c ∈ ids, c.type = letters 'I' 'D' 'A' 'T') ∧ (ids.map Chunk.data).flatten = z ∧
    ie.type = letters 'I' 'E' 'N' 'D'

/-- the channels of the picture given back -/
def Picture.channels (p : Picture) : Nat :=
  if p.color = 3 then (if p.clear.isSome then 4 else 3) else (if p.clear.isSome then p.chan + 1 else p.chan)

/-- the channel `c` of a pixel whose samples are `v`: red, green, blue and alpha, or grey and alpha -/
def Picture.value (p : Picture) (v : Nat → Nat) (c : Nat) : Nat :=
  if p.color = 3 then
    let e := (p.entries.getD []).getD (v 0) (0, 0, 0)
    match c with
    | 0 => e.1.toNat
    | 1 => e.2.1.toNat
    | 2 => e.2.2.toNat
    | _ => (p.clear.getD []).getD (v 0) 255
  else if c < p.chan then shown p.color p.d (v c)
  else if (List.range p.chan).map v = p.clear.getD [] then 0
  else top p.d

/-- the channel `c` of a pixel made to 8 bits: the lower byte of a sample of 16 bits is left out -/
def Picture.byte (p : Picture) (v : Nat → Nat) (c : Nat) : Nat := if p.d = 16 then p.value v c / 256 else p.value v c

end Verif.Png
