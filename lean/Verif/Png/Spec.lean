/-!
# The PNG format

From the PNG specification (ISO/IEC 15948): what a scanline is, how it is filtered, and where the pixels of the passes
of an interlaced picture are.  Nothing here is taken from the decoder.
-/

namespace Verif.Png

/-- the bits of a scanline, the highest of a byte first (section 7.2) -/
def bitOf (row : Nat → UInt8) (i : Nat) : Nat := (row (i / 8)).toNat / 2 ^ (7 - i % 8) % 2

/-- the sample `s` of a scanline with `d` bits for each, the highest first -/
def sampleOf (row : Nat → UInt8) (d s : Nat) : Nat :=
  (List.range d).foldl (fun v k => 2 * v + bitOf row (s * d + k)) 0

/-- the Paeth predictor (section 9.4): which of `a`, `b` and `c` is nearest to `a + b - c` -/
def nearest (a b c : Nat) : Nat :=
  let pa := ((b : Int) - c).natAbs
  let pb := ((a : Int) - c).natAbs
  let pc := ((a : Int) + b - 2 * c).natAbs
  if pa ≤ pb ∧ pa ≤ pc then a
  else if pb ≤ pc then b
  else c

/-- what a filter predicts (section 9.2) -/
def predict (type a b c : Nat) : Nat :=
  match type with
  | 0 => 0
  | 1 => a
  | 2 => b
  | 3 => (a + b) / 2
  | _ => nearest a b c

/-- the bytes of a pixel, rounded up (section 9.2) -/
def pixelBytes (n d : Nat) : Nat := (n * d + 7) / 8

/-- the bytes of a scanline of `x` pixels of `n` samples each, rounded up (section 7.2) -/
def lineBytes (n x d : Nat) : Nat := (n * x * d + 7) / 8

/-- the byte `bpp` bytes to the left of a byte, 0 outside -/
def before (bpp : Nat) (row : Nat → UInt8) (t : Nat) : Nat := if t < bpp then 0 else (row (t - bpp)).toNat

/-- the scanline above, 0 outside -/
def above (pic : Nat → Nat → UInt8) (j : Nat) : Nat → UInt8 := if j = 0 then fun _ => 0 else pic (j - 1)

/-- `raw` begins with the `y` scanlines of `wb` bytes each of `pic`, each filtered by any of the filters, the number of which
goes before it -/
def Filtered (bpp wb y : Nat) (pic : Nat → Nat → UInt8) (raw : List UInt8) : Prop :=
  ∀ j < y, ∃ f : UInt8, f.toNat ≤ 4 ∧ raw[j * (wb + 1)]? = some f ∧
    ∀ t < wb, raw[j * (wb + 1) + 1 + t]? =
      some (pic j t - UInt8.ofNat (predict f.toNat (before bpp (pic j) t) (above pic j t).toNat (before bpp (above pic j) t)))

/-- grey of less than 8 bits made to 8 bits (section 13.12): the greatest value becomes 255 -/
def shown (color d v : Nat) : Nat := if d < 8 ∧ color = 0 then v * 255 / (2 ^ d - 1) else v

/-- the greatest value of a sample of the picture given back, which has at least 8 bits -/
def top (d : Nat) : Nat := if d = 16 then 65535 else 255

/-- `raw` begins with the scanlines of a picture whose samples are `px`, by row, column and channel -/
def Scans (n d x y : Nat) (px : Nat → Nat → Nat → Nat) (raw : List UInt8) : Prop :=
  ∃ pic, Filtered (pixelBytes n d) (lineBytes n x d) y pic raw ∧
    ∀ j < y, ∀ i < x, ∀ c < n, sampleOf (pic j) d (i * n + c) = px j i c

/-- the passes to which the pixels of an 8 by 8 square belong (section 8.2) -/
def adamTable : List (List Nat) :=
  [[1, 6, 4, 6, 2, 6, 4, 6],
   [7, 7, 7, 7, 7, 7, 7, 7],
   [5, 6, 5, 6, 5, 6, 5, 6],
   [7, 7, 7, 7, 7, 7, 7, 7],
   [3, 6, 4, 6, 3, 6, 4, 6],
   [7, 7, 7, 7, 7, 7, 7, 7],
   [5, 6, 5, 6, 5, 6, 5, 6],
   [7, 7, 7, 7, 7, 7, 7, 7]]

/-- the pass of a pixel -/
def passOf (X Y : Nat) : Nat := (adamTable.getD (Y % 8) []).getD (X % 8) 0

/-- the columns with pixels of a pass -/
def columns (p W : Nat) : List Nat := (List.range W).filter fun X => (List.range 8).any fun Y => passOf X Y == p

/-- the rows with pixels of a pass -/
def lines (p H : Nat) : List Nat := (List.range H).filter fun Y => (List.range 8).any fun X => passOf X Y == p

/-- `raw` begins with the pictures made of the pixels of the passes, one after another; there is nothing for an empty
one -/
def Passes (n d W H : Nat) (px : Nat → Nat → Nat → Nat) : List Nat → List UInt8 → Prop
  | [], _ => True
  | p :: ps, raw =>
    if columns p W = [] ∨ lines p H = [] then Passes n d W H px ps raw
    else
      Scans n d (columns p W).length (lines p H).length (fun j i => px ((lines p H).getD j 0) ((columns p W).getD i 0)) raw ∧
        Passes n d W H px ps (raw.drop ((lineBytes n (columns p W).length d + 1) * (lines p H).length))

/-- `raw` begins with the picture, interlaced or not -/
def Pixels (interlaced : Bool) (n d W H : Nat) (px : Nat → Nat → Nat → Nat) (raw : List UInt8) : Prop :=
  if interlaced then Passes n d W H px [1, 2, 3, 4, 5, 6, 7] raw else Scans n d W H px raw

end Verif.Png
