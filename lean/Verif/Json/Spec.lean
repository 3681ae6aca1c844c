import Verif.Json.Model

/-!
# JSON, as RFC 8259 defines it

The grammar of JSON texts together with the value each text stands for, over bytes, with strings in
UTF-8 (RFC 3629).  Nothing here refers to the lexer or the parser; only the type of values is shared.
-/

namespace Verif.Json.Spec
open Verif.Json

/-! ## Characters -/

/-- the Unicode scalar values: code points other than surrogates -/
def Scalar (c : Nat) : Prop := c < 0xD800 ∨ (0xE000 ≤ c ∧ c < 0x110000)

/-- UTF-8 (RFC 3629, section 3) -/
def utf8 (c : Nat) : Bytes :=
  if c < 0x80 then [c]
  else if c < 0x800 then [0xC0 + c / 64, 0x80 + c % 64]
  else if c < 0x10000 then [0xE0 + c / 4096, 0x80 + c / 64 % 64, 0x80 + c % 64]
  else [0xF0 + c / 262144, 0x80 + c / 4096 % 64, 0x80 + c / 64 % 64, 0x80 + c % 64]

/-- the UTF-8 text of a list of characters -/
def utf8All : List Nat → Bytes
  | [] => []
  | c :: cs => utf8 c ++ utf8All cs

/-- a well-formed UTF-8 text -/
def Utf8 (s : Bytes) : Prop := ∃ cs, (∀ c ∈ cs, Scalar c) ∧ s = utf8All cs

/-- a hexadecimal digit and its value -/
inductive HexDigit : Nat → Nat → Prop
  | dec (v : Nat) : v < 10 → HexDigit (0x30 + v) v
  | upper (v : Nat) : v < 6 → HexDigit (0x41 + v) (10 + v)
  | lower (v : Nat) : v < 6 → HexDigit (0x61 + v) (10 + v)

/-- four hexadecimal digits and their value -/
inductive Hex4 : Bytes → Nat → Prop
  | mk {a b c d va vb vc vd : Nat} : HexDigit a va → HexDigit b vb → HexDigit c vc → HexDigit d vd →
      Hex4 [a, b, c, d] (4096 * va + 256 * vb + 16 * vc + vd)

/-- the character after a backslash, and the character meant: `"`, `\`, `/`, `b`, `f`, `n`, `r`, `t` -/
def escapes : List (Nat × Nat) :=
  [(0x22, 0x22), (0x5C, 0x5C), (0x2F, 0x2F), (0x62, 0x08), (0x66, 0x0C), (0x6E, 0x0A), (0x72, 0x0D),
    (0x74, 0x09)]

/-- one character of a string (RFC 8259, section 7): its text and the bytes it stands for -/
inductive StrChar : Bytes → Bytes → Prop
  | plain {c : Nat} : Scalar c → 0x20 ≤ c → c ≠ 0x22 → c ≠ 0x5C → StrChar (utf8 c) (utf8 c)
  | escape {e c : Nat} : (e, c) ∈ escapes → StrChar [0x5C, e] [c]
  | unicode {h : Bytes} {c : Nat} : Hex4 h c → Scalar c → StrChar (0x5C :: 0x75 :: h) (utf8 c)
  | pair {h h' : Bytes} {a b : Nat} : Hex4 h a → Hex4 h' b → 0xD800 ≤ a → a < 0xDC00 →
      0xDC00 ≤ b → b < 0xE000 →
      StrChar (0x5C :: 0x75 :: (h ++ 0x5C :: 0x75 :: h'))
        (utf8 (0x10000 + (a - 0xD800) * 0x400 + (b - 0xDC00)))

/-- the characters of a string -/
inductive StrChars : Bytes → Bytes → Prop
  | nil : StrChars [] []
  | cons {t s t' s' : Bytes} : StrChar t s → StrChars t' s' → StrChars (t ++ t') (s ++ s')

/-! ## White space and numbers -/

/-- insignificant white space (RFC 8259, section 2) -/
def Ws (w : Bytes) : Prop := ∀ c ∈ w, c = 0x20 ∨ c = 0x09 ∨ c = 0x0A ∨ c = 0x0D

def Digit (c : Nat) : Prop := 0x30 ≤ c ∧ c ≤ 0x39

def Digits (ds : Bytes) : Prop := ds ≠ [] ∧ ∀ c ∈ ds, Digit c

/-- `int`: zero, or digits without a leading zero -/
def IntPart (i : Bytes) : Prop := i = [0x30] ∨ (Digits i ∧ i.head? ≠ some 0x30)

/-- `frac`, possibly absent -/
def Frac (f : Bytes) : Prop := f = [] ∨ ∃ ds, Digits ds ∧ f = 0x2E :: ds

/-- `exp`, possibly absent -/
def Exp (e : Bytes) : Prop :=
  e = [] ∨ ∃ m sg ds, (m = 0x65 ∨ m = 0x45) ∧ (sg = [] ∨ sg = [0x2B] ∨ sg = [0x2D]) ∧ Digits ds ∧
    e = m :: (sg ++ ds)

/-- the sign, possibly absent -/
def Sign (sg : Bytes) : Prop := sg = [] ∨ sg = [0x2D]

/-- the text of a number (RFC 8259, section 6) -/
def NumText (t : Bytes) : Prop :=
  ∃ sg i f e, Sign sg ∧ IntPart i ∧ Frac f ∧ Exp e ∧ t = sg ++ i ++ f ++ e

/-- the value of decimal digits -/
def decimal : Bytes → Nat
  | [] => 0
  | d :: ds => (d - 0x30) * 10 ^ ds.length + decimal ds

/-- a number: integers of 64 bits are kept as they are, everything else is a floating-point number,
which must be finite -/
inductive Number {F : Type} (fl : Floats F) : Bytes → Json F → Prop
  | uint {i : Bytes} : IntPart i → decimal i < 2 ^ 64 → Number fl i (.uint (decimal i))
  | int {i : Bytes} : IntPart i → decimal i ≤ 2 ^ 63 →
      Number fl (0x2D :: i) (.int (-(decimal i : Int)))
  | float {sg i f e : Bytes} : Sign sg → IntPart i → Frac f → Exp e →
      (f ≠ [] ∨ e ≠ [] ∨ (sg = [] ∧ 2 ^ 64 ≤ decimal i) ∨ (sg = [0x2D] ∧ 2 ^ 63 < decimal i)) →
      fl.finite (fl.toFloat (sg ++ i ++ f ++ e)) = true →
      Number fl (sg ++ i ++ f ++ e) (.float (fl.toFloat (sg ++ i ++ f ++ e)))

/-- `t` is not the beginning of a longer number in `t ++ rest` -/
def Munch (t rest : Bytes) : Prop := ∀ c r u, rest = c :: r → ¬ NumText (t ++ c :: u)

/-! ## Values -/

mutual
/-- a value: its text, and the value with the members of objects in the order of the text, repeated
names included -/
inductive Value {F : Type} (fl : Floats F) : Bytes → Json F → Prop
  | null : Value fl [0x6E, 0x75, 0x6C, 0x6C] .null
  | true : Value fl [0x74, 0x72, 0x75, 0x65] (.bool true)
  | false : Value fl [0x66, 0x61, 0x6C, 0x73, 0x65] (.bool false)
  | num {t : Bytes} {v : Json F} : Number fl t v → Value fl t v
  | str {t s : Bytes} : StrChars t s → Value fl (0x22 :: (t ++ [0x22])) (.str s)
  | emptyArr {w : Bytes} : Ws w → Value fl (0x5B :: (w ++ [0x5D])) (.arr [])
  | arr {t : Bytes} {vs : List (Json F)} : Elements fl t vs →
      Value fl (0x5B :: (t ++ [0x5D])) (.arr vs)
  | emptyObj {w : Bytes} : Ws w → Value fl (0x7B :: (w ++ [0x7D])) (.obj [])
  | obj {t : Bytes} {ms : List (Bytes × Json F)} : Members fl t ms →
      Value fl (0x7B :: (t ++ [0x7D])) (.obj ms)

/-- the values of an array, separated by commas -/
inductive Elements {F : Type} (fl : Floats F) : Bytes → List (Json F) → Prop
  | one {w t w' : Bytes} {v : Json F} : Ws w → Value fl t v → Ws w' →
      Elements fl (w ++ t ++ w') [v]
  | cons {w t w' ts : Bytes} {v : Json F} {vs : List (Json F)} : Ws w → Value fl t v → Ws w' →
      Elements fl ts vs → Elements fl (w ++ t ++ w' ++ 0x2C :: ts) (v :: vs)

/-- the members of an object, separated by commas -/
inductive Members {F : Type} (fl : Floats F) : Bytes → List (Bytes × Json F) → Prop
  | one {w k w1 w2 t w' s : Bytes} {v : Json F} : Ws w → StrChars k s → Ws w1 → Ws w2 →
      Value fl t v → Ws w' →
      Members fl (w ++ (0x22 :: (k ++ [0x22])) ++ w1 ++ 0x3A :: (w2 ++ t ++ w')) [(s, v)]
  | cons {w k w1 w2 t w' s ts : Bytes} {v : Json F} {ms : List (Bytes × Json F)} : Ws w →
      StrChars k s → Ws w1 → Ws w2 → Value fl t v → Ws w' → Members fl ts ms →
      Members fl (w ++ (0x22 :: (k ++ [0x22])) ++ w1 ++ 0x3A :: (w2 ++ t ++ w' ++ 0x2C :: ts))
        ((s, v) :: ms)
end

/-- the byte order mark, possibly absent -/
def Bom (b : Bytes) : Prop := b = [] ∨ b = [0xEF, 0xBB, 0xBF]

/-- the values that are numbers -/
def IsNumber {F : Type} : Json F → Prop
  | .int _ | .uint _ | .float _ => True
  | _ => False

/-- a byte that no number contains -/
def NotNumeric (c : Nat) : Prop :=
  ¬ Digit c ∧ c ≠ 0x2E ∧ c ≠ 0x65 ∧ c ≠ 0x45 ∧ c ≠ 0x2B ∧ c ≠ 0x2D

end Verif.Json.Spec
