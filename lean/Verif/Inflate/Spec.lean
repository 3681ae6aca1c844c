/-!
# The formats: RFC 1950 (zlib) and RFC 1951 (deflate)

Written from the two documents, not from the code.  A stream is a list of bytes, and places in it are numbers of
bits; behind the end there are only zeros (a stream that needs them is not a proper one, but the decoder takes them).
-/

namespace Verif.Inflate

/-- bit `i` of a stream: the bits of a byte are counted from the least one (RFC 1951, 3.1.1); 0 behind the end -/
def bitAt (inp : List UInt8) (i : Nat) : Nat := (inp[i / 8]?.getD 0).toNat / 2 ^ (i % 8) % 2

/-- a number of `n` bits at a place, least bit first -/
def lsb (inp : List UInt8) (p : Nat) : Nat → Nat
  | 0 => 0
  | n + 1 => lsb inp p n + 2 ^ n * bitAt inp (p + n)

/-- a code of `n` bits at a place, greatest bit first (RFC 1951, 3.1.1) -/
def msb (inp : List UInt8) (p : Nat) : Nat → Nat
  | 0 => 0
  | n + 1 => 2 * msb inp p n + bitAt inp (p + n)

/-- the length of the code of a symbol; 0 if it has none -/
def lenOf (ls : List Nat) (i : Nat) : Nat := ls[i]?.getD 0

/-- does the code of symbol `j` come before that of symbol `i`: shorter codes before longer ones, codes of one length in the
order of their symbols (RFC 1951, 3.2.2) -/
def before (ls : List Nat) (j i : Nat) : Prop :=
  0 < lenOf ls j ∧ (lenOf ls j < lenOf ls i ∨ lenOf ls j = lenOf ls i ∧ j < i)

instance (ls : List Nat) (j i : Nat) : Decidable (before ls j i) := by unfold before; exact inferInstance

/-- the code of a symbol, as a number of `lenOf ls i` bits: each code before it takes the part `1 / 2 ^ length` of all -/
def codeOf (ls : List Nat) (i : Nat) : Nat :=
  ((List.range ls.length).map fun j => if before ls j i then 2 ^ (lenOf ls i - lenOf ls j) else 0).sum

/-- the symbol whose code is at a place -/
def SymAt (inp : List UInt8) (ls : List Nat) (p i : Nat) : Prop :=
  0 < lenOf ls i ∧ msb inp p (lenOf ls i) = codeOf ls i

instance (inp : List UInt8) (ls : List Nat) (p i : Nat) : Decidable (SymAt inp ls p i) := by unfold SymAt; exact inferInstance

/-- lengths that a code with at most 15 bits can have: all together are no more than everything -/
def Fits (ls : List Nat) : Prop :=
  (∀ l ∈ ls, l ≤ 15) ∧ (ls.map fun l => if l = 0 then 0 else 2 ^ (15 - l)).sum ≤ 2 ^ 15

instance (ls : List Nat) : Decidable (Fits ls) := by unfold Fits; exact inferInstance

/-- the number of extra bits of a length, for the symbol `257 + i` (RFC 1951, 3.2.5) -/
def lenExtra (i : Nat) : Nat := if i < 8 ∨ i = 28 then 0 else (i - 4) / 4

/-- the least length for the symbol `257 + i` -/
def lenBase (i : Nat) : Nat :=
  if i < 8 then i + 3 else if i = 28 then 258 else 3 + (4 + i % 4) * 2 ^ lenExtra i

/-- the number of extra bits of a distance -/
def distExtraBits (i : Nat) : Nat := if i < 4 then 0 else (i - 2) / 2

/-- the least distance for a symbol -/
def distLeast (i : Nat) : Nat := if i < 4 then i + 1 else 1 + (2 + i % 2) * 2 ^ distExtraBits i

/-- `n` bytes copied one after the other from `dist` bytes back -/
def copied (dist : Nat) : Nat → List UInt8 → List UInt8
  | 0, out => out
  | n + 1, out => copied dist n (out ++ [out[out.length - dist]?.getD 0])

/-- one symbol of compressed data, from a place with the output before it to the place behind: a byte, or a length with its
distance.  If `lax`, the symbols 286 and 287, which must not occur, stand for a copy of no bytes, and then the distances
30 and 31 for nothing. -/
inductive Step (lax : Bool) (inp : List UInt8) (lit dist : List Nat) : Nat → List UInt8 → Nat → List UInt8 → Prop
  | byte {p : Nat} {out : List UInt8} {c : Nat} : c < 256 → SymAt inp lit p c →
      Step lax inp lit dist p out (p + lenOf lit c) (out ++ [UInt8.ofNat c])
  | copy {p : Nat} {out : List UInt8} {l d : Nat} : l < 29 → SymAt inp lit p (257 + l) → d < 30 →
      SymAt inp dist (p + lenOf lit (257 + l) + lenExtra l) d →
      distLeast d + lsb inp (p + lenOf lit (257 + l) + lenExtra l + lenOf dist d) (distExtraBits d) ≤ out.length →
      Step lax inp lit dist p out (p + lenOf lit (257 + l) + lenExtra l + lenOf dist d + distExtraBits d)
        (copied (distLeast d + lsb inp (p + lenOf lit (257 + l) + lenExtra l + lenOf dist d) (distExtraBits d))
          (lenBase l + lsb inp (p + lenOf lit (257 + l)) (lenExtra l)) out)
  | nothing {p : Nat} {out : List UInt8} {l d : Nat} : lax = true → l = 29 ∨ l = 30 →
      SymAt inp lit p (257 + l) → d < 30 → SymAt inp dist (p + lenOf lit (257 + l)) d →
      distLeast d + lsb inp (p + lenOf lit (257 + l) + lenOf dist d) (distExtraBits d) ≤ out.length →
      Step lax inp lit dist p out (p + lenOf lit (257 + l) + lenOf dist d + distExtraBits d) out
  | nowhere {p : Nat} {out : List UInt8} {l d : Nat} : lax = true → l = 29 ∨ l = 30 →
      SymAt inp lit p (257 + l) → d = 30 ∨ d = 31 → SymAt inp dist (p + lenOf lit (257 + l)) d →
      Step lax inp lit dist p out (p + lenOf lit (257 + l) + lenOf dist d) out

/-- some number of symbols -/
inductive Steps (lax : Bool) (inp : List UInt8) (lit dist : List Nat) : Nat → Nat → List UInt8 → Nat → List UInt8 → Prop
  | refl {p : Nat} {out : List UInt8} : Steps lax inp lit dist 0 p out p out
  | step {n p : Nat} {out : List UInt8} {q : Nat} {out' : List UInt8} {r : Nat} {out'' : List UInt8} :
      Step lax inp lit dist p out q out' → Steps lax inp lit dist n q out' r out'' → Steps lax inp lit dist (n + 1) p out r out''

/-- compressed data: symbols up to the end-of-block code, 256 -/
def Data (lax : Bool) (inp : List UInt8) (lit dist : List Nat) (p : Nat) (out : List UInt8) (q : Nat) (out' : List UInt8) : Prop :=
  ∃ n r, Steps lax inp lit dist n p out r out' ∧ SymAt inp lit r 256 ∧ q = r + lenOf lit 256

/-- the order of the lengths of the codes for lengths (RFC 1951, 3.2.7) -/
def lenOrder : List Nat := [16, 17, 18, 0, 8, 7, 9, 6, 10, 5, 11, 4, 12, 3, 13, 2, 14, 1, 15]

/-- these lengths, `n` of which are at the place -/
def lenLens (inp : List UInt8) (p n : Nat) : List Nat :=
  (List.range 19).map fun s => if lenOrder.idxOf s < n then lsb inp (p + 3 * lenOrder.idxOf s) 3 else 0

/-- the lengths of the codes, `n` in all, coded with the code `cl` (RFC 1951, 3.2.7) -/
inductive Lens (inp : List UInt8) (cl : List Nat) (n : Nat) : Nat → List Nat → Nat → List Nat → Prop
  | done {p : Nat} {acc : List Nat} : acc.length = n → Lens inp cl n p acc p acc
  | one {p : Nat} {acc : List Nat} {c q : Nat} {acc' : List Nat} : acc.length < n → c < 16 → SymAt inp cl p c →
      Lens inp cl n (p + lenOf cl c) (acc ++ [c]) q acc' → Lens inp cl n p acc q acc'
  | same {p : Nat} {acc : List Nat} {c q : Nat} {acc' : List Nat} : acc.getLast? = some c → SymAt inp cl p 16 →
      acc.length + (3 + lsb inp (p + lenOf cl 16) 2) ≤ n →
      Lens inp cl n (p + lenOf cl 16 + 2) (acc ++ List.replicate (3 + lsb inp (p + lenOf cl 16) 2) c) q acc' →
      Lens inp cl n p acc q acc'
  | zeros {p : Nat} {acc : List Nat} {q : Nat} {acc' : List Nat} : SymAt inp cl p 17 →
      acc.length + (3 + lsb inp (p + lenOf cl 17) 3) ≤ n →
      Lens inp cl n (p + lenOf cl 17 + 3) (acc ++ List.replicate (3 + lsb inp (p + lenOf cl 17) 3) 0) q acc' →
      Lens inp cl n p acc q acc'
  | many {p : Nat} {acc : List Nat} {q : Nat} {acc' : List Nat} : SymAt inp cl p 18 →
      acc.length + (11 + lsb inp (p + lenOf cl 18) 7) ≤ n →
      Lens inp cl n (p + lenOf cl 18 + 7) (acc ++ List.replicate (11 + lsb inp (p + lenOf cl 18) 7) 0) q acc' →
      Lens inp cl n p acc q acc'

/-- the fixed code for literals and lengths (RFC 1951, 3.2.6) -/
def fixedLit : List Nat := (List.range 288).map fun i => if i ≤ 143 then 8 else if i ≤ 255 then 9 else if i ≤ 279 then 7 else 8

/-- the fixed code for distances -/
def fixedDist : List Nat := (List.range 32).map fun _ => 5

/-- a block of compressed data, behind its first bit: its codes, and where the data begins (RFC 1951, 3.2.6 and 3.2.7) -/
inductive Opens (inp : List UInt8) (p : Nat) : List Nat → List Nat → Nat → Prop
  | fixed : lsb inp p 2 = 1 → Opens inp p fixedLit fixedDist (p + 2)
  | dynamic {ls : List Nat} {r : Nat} : lsb inp p 2 = 2 →
      Fits (lenLens inp (p + 16) (lsb inp (p + 12) 4 + 4)) →
      Lens inp (lenLens inp (p + 16) (lsb inp (p + 12) 4 + 4)) (lsb inp (p + 2) 5 + 257 + (lsb inp (p + 7) 5 + 1))
        (p + 16 + 3 * (lsb inp (p + 12) 4 + 4)) [] r ls →
      Fits (ls.take (lsb inp (p + 2) 5 + 257)) → Fits (ls.drop (lsb inp (p + 2) 5 + 257)) →
      Opens inp p (ls.take (lsb inp (p + 2) 5 + 257)) (ls.drop (lsb inp (p + 2) 5 + 257)) r

/-- one block behind its first bit (RFC 1951, 3.2.3-3.2.7) -/
inductive Block (lax : Bool) (inp : List UInt8) : Nat → List UInt8 → Nat → List UInt8 → Prop
  | stored {p : Nat} {out : List UInt8} {o len : Nat} : lsb inp p 2 = 0 → p + 2 ≤ 8 * o → 8 * o < p + 10 →
      len = lsb inp (8 * o) 16 → lsb inp (8 * o + 16) 16 = 65535 - len → o + 4 + len ≤ inp.length →
      Block lax inp p out (8 * (o + 4 + len)) (out ++ (inp.drop (o + 4)).take len)
  | data {p : Nat} {out : List UInt8} {lit dist : List Nat} {r q : Nat} {out' : List UInt8} : Opens inp p lit dist r →
      Data lax inp lit dist r out q out' → Block lax inp p out q out'

/-- blocks, the first bit of each says whether it is the last -/
inductive Blocks (lax : Bool) (inp : List UInt8) : Nat → List UInt8 → Nat → List UInt8 → Prop
  | last {p : Nat} {out : List UInt8} {q : Nat} {out' : List UInt8} : bitAt inp p = 1 →
      Block lax inp (p + 1) out q out' → Blocks lax inp p out q out'
  | more {p : Nat} {out : List UInt8} {q : Nat} {out' : List UInt8} {r : Nat} {out'' : List UInt8} : bitAt inp p = 0 →
      Block lax inp (p + 1) out q out' → Blocks lax inp q out' r out'' → Blocks lax inp p out r out''

/-- reading blocks comes to a place in compressed data with the given codes -/
inductive Meets (inp : List UInt8) : Nat → List UInt8 → List Nat → List Nat → Nat → List UInt8 → Prop
  | here {p : Nat} {out : List UInt8} {lit dist : List Nat} {s n r : Nat} {out' : List UInt8} : Opens inp (p + 1) lit dist s →
      Steps true inp lit dist n s out r out' → Meets inp p out lit dist r out'
  | later {p : Nat} {out : List UInt8} {q : Nat} {out' : List UInt8} {lit dist : List Nat} {r : Nat} {out'' : List UInt8} :
      bitAt inp p = 0 → Block true inp (p + 1) out q out' → Meets inp q out' lit dist r out'' → Meets inp p out lit dist r out''

/-- reading blocks comes to some output -/
inductive Writes (inp : List UInt8) : Nat → List UInt8 → List UInt8 → Prop
  | within {p : Nat} {out : List UInt8} {lit dist : List Nat} {r : Nat} {out' : List UInt8} : Meets inp p out lit dist r out' → Writes inp p out out'
  | behind {p : Nat} {out : List UInt8} {q : Nat} {out' : List UInt8} : Block true inp (p + 1) out q out' → Writes inp p out out'
  | later {p : Nat} {out : List UInt8} {q : Nat} {out' out'' : List UInt8} :
      bitAt inp p = 0 → Block true inp (p + 1) out q out' → Writes inp q out' out'' → Writes inp p out out''

/-- the two bytes before the blocks (RFC 1950, 2.2): method 8, no dictionary, a multiple of 31 -/
def Header (inp : List UInt8) : Prop :=
  lsb inp 0 4 = 8 ∧ bitAt inp 13 = 0 ∧ (lsb inp 0 8 * 256 + lsb inp 8 8) % 31 = 0

/-- a stream stands for some bytes: it is one of deflate, or, with a header, of zlib.  What is behind the blocks, such as
the check sum, does not matter. -/
def Inflates (lax header : Bool) (inp out : List UInt8) : Prop :=
  if header then Header inp ∧ ∃ q, Blocks lax inp 16 [] q out else ∃ q, Blocks lax inp 0 [] q out

/-- the same, and the stream is not cut off -/
def Proper (header : Bool) (inp out : List UInt8) : Prop :=
  if header then Header inp ∧ ∃ q, Blocks false inp 16 [] q out ∧ q ≤ 8 * inp.length
  else ∃ q, Blocks false inp 0 [] q out ∧ q ≤ 8 * inp.length

end Verif.Inflate
