import Verif.Png.FileModel
import Mathlib.Algebra.Order.Field.Rat

/-!
# Model of comparing two PNG files as images

`imageCompare` of `ristra/io/catalyst/utils/catalystUtils.hpp` together with the image loader, on two files both of which begin as PNG files
do.  In `Catalyst.UtilsModel` the loader is a parameter.  What is printed is left out, and that the pictures are never freed.
-/

namespace Verif.Png

/-- `stbi_load` gives a null pointer for an error, stb_image.h:1268-1288 -/
def tried (o : Outcome Image) : Outcome (Option Image) :=
  match o with
  | .ok i => .ok (some i)
  | .throws _ => .ok none
  | .assertFail => .assertFail
  | .outOfRange => .outOfRange
  | .ub => .ub
  | .diverges => .diverges

/-- the counting loop, catalystUtils.hpp:109-115 -/
def countLoop (a b : Buf) (n : Nat) : Outcome Nat :=
  loop n (fun i k => load a i >>= fun x => load b i >>= fun y => .ok (if x ≠ y then k + 1 else k)) 0

/-- `imageCompare`, catalystUtils.hpp:70-128, for the bytes of the two files; `fl` rounds to `float`.  The product of the sizes is one of
`int` numbers -/
def imageCompare (fl : ℚ → ℚ) (rounds room : Nat) (fileA fileB : List UInt8) : Outcome Bool :=
  tried (loadPng rounds room fileA) >>= fun imgA =>
    match imgA with
    | none => .ok false
    | some a =>
      tried (loadPng rounds room fileB) >>= fun imgB =>
        match imgB with
        | none => .ok false
        | some b =>
          if a.x ≠ b.x then .ok false
          else if a.y ≠ b.y then .ok false
          else if a.n ≠ b.n then .ok false
          else if 2 ^ 31 ≤ a.x * a.y * a.n then .ub
          else
            countLoop a.out b.out (a.x * a.y * a.n) >>= fun numDiff =>
              .ok (if fl (fl numDiff / fl (a.x * a.y * a.n : Nat)) > 2 / 100 then false else true)

end Verif.Png
