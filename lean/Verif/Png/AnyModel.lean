import Verif.Png.BmpModel
import Verif.Png.CompareModel
import Verif.Png.PnmModel
import Verif.Png.TgaModel

/-!
# Model of loading and comparing files of any format

`stbi_load` of `ristra/io/catalyst/utils/stb_image.h` tells the format by the first bytes; `imageCompare` of
`ristra/io/catalyst/utils/catalystUtils.hpp` compares what it gives.  PNG, BMP, PGM and PPM files, and files whose second byte is 0 or 1, which
can be TGA files only, are read by the models of them; how files of other formats are read is a parameter.
-/

namespace Verif.Png

/-- `stbi_load`, stb_image.h:1049-1093, 1166-1188, 1268-1288: the formats that are tried before PNG, BMP and PNM need another first byte.  Turning the picture upside
down is not asked for.  Looking for the format allocates memory in between (3892-3902), which is taken to succeed, and overwrites the first byte of a file of
fewer than four bytes (1499-1513, 5818-5823); such a file is refused in any case. -/
def loadImage (rounds room : Nat) (other : List UInt8 → Outcome Image) (file : List UInt8) : Outcome Image :=
  match file with
  | 137 :: 80 :: 78 :: 71 :: 13 :: 10 :: 26 :: 10 :: _ => loadPng rounds room file
  | 66 :: 77 :: _ => loadBmp room file
  | 80 :: 53 :: _ => loadPnm rounds room file
  | 80 :: 54 :: _ => loadPnm rounds room file
  | _ :: 0 :: _ => loadTga room file
  | _ :: 1 :: _ => loadTga room file
  | _ => other file

/-- `imageCompare`, catalystUtils.hpp:70-128, for the bytes of two files; `fl` rounds to `float`.  If there are no pixels the quotient is not a
number, and not greater than anything -/
def compareFiles (fl : ℚ → ℚ) (rounds room : Nat) (other : List UInt8 → Outcome Image) (fileA fileB : List UInt8) : Outcome Bool :=
  tried (loadImage rounds room other fileA) >>= fun imgA =>
    match imgA with
    | none => .ok false
    | some a =>
      tried (loadImage rounds room other fileB) >>= fun imgB =>
        match imgB with
        | none => .ok false
        | some b =>
          if a.x ≠ b.x then .ok false
          else if a.y ≠ b.y then .ok false
          else if a.n ≠ b.n then .ok false
          else if 2 ^ 31 ≤ a.x * a.y ∨ 2 ^ 31 ≤ a.x * a.y * a.n then .ub
          else
            countLoop a.out b.out (a.x * a.y * a.n) >>= fun numDiff =>
              .ok (if a.x * a.y * a.n = 0 then true else if fl (fl numDiff / fl (a.x * a.y * a.n : Nat)) > 2 / 100 then false else true)

end Verif.Png
