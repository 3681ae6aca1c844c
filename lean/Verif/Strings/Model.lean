import Verif.Common.Outcome

/-!
# Model of `ristra/utils/string_utils.h`

A string is a list of characters; a `char` value outside 0..127 stands for a negative
`char`.  `to_string` (49-54, formatting of arbitrary types) and `to_wstring` (61-70,
locale dependent) are not modelled.
-/

namespace Verif.Strings

/-- `std::string` -/
abbrev Str := List Char

/-! ## `std::string::find`, `rfind` -/

/-- the first position from which `pat` is found, counted from `i` -/
def findIn (pat : Str) : Str → Nat → Option Nat
  | [], i => if pat.isPrefixOf [] then some i else none
  | c :: cs, i => if pat.isPrefixOf (c :: cs) then some i else findIn pat cs (i + 1)

/-- `s.find(pat, pos)` -/
def find (s pat : Str) (pos : Nat) : Option Nat :=
  if pos > s.length then none else findIn pat (s.drop pos) pos

/-- `s.rfind(c, s.length())` and `s.find_last_of(c)` -/
def rfind (c : Char) : Str → Option Nat
  | [] => none
  | x :: xs =>
    match rfind c xs with
    | some i => some (i + 1)
    | none => if x = c then some 0 else none

/-- `s.substr(pos, n)` for `pos ≤ size` -/
def substr (s : Str) (pos n : Nat) : Str := (s.drop pos).take n

/-! ## `replace_all`, lines 35-42 -/

/-- the `while` loop, at most `fuel` evaluations of its condition; string_utils.h:37-40 -/
def replaceLoop (frm to : Str) : Nat → Str → Nat → Outcome Str
  | 0, _, _ => .diverges
  | fuel + 1, s, pos =>
    match find s frm pos with
    | none => .ok s
    | some i => replaceLoop frm to fuel (s.take i ++ to ++ s.drop (i + frm.length)) (i + to.length)

/-- `replace_all`, string_utils.h:35-42: the loop from the beginning -/
def replaceAll (fuel : Nat) (s frm to : Str) : Outcome Str := replaceLoop frm to fuel s 0

/-! ## Paths -/

/-- string_utils.h:78-91 -/
def basename (s : Str) : Str :=
  match rfind '/' s with
  | some i => substr s (i + 1) (s.length - 1)
  | none => s

/-- string_utils.h:99-109 -/
def fileExtension (s : Str) : Str :=
  let base := basename s
  match rfind '.' base with
  | some i => substr base (i + 1) (base.length - 1)
  | none => []

/-- string_utils.h:117-121 -/
def removeExtension (s : Str) : Str :=
  match rfind '.' s with
  | none => s
  | some i => substr s 0 i

/-- string_utils.h:130-136 -/
def splitExtension (s : Str) : Str × Str :=
  match rfind '.' s with
  | none => (s, [])
  | some i => (substr s 0 i, s.drop (i + 1))

/-! ## `split`, lines 146-180 -/

/-- white space of the classic character table: codes 9..13 and 32 -/
def classicSpace (c : Char) : Bool := (9 ≤ c.toNat && c.toNat ≤ 13) || c.toNat == 32

/-- the table after string_utils.h:165-168: the classic table with the delimiters added -/
def tableSpace (delims : List Char) (c : Char) : Bool := delims.contains c || classicSpace c

/-- `istream_iterator<string>`: skip white space, read up to white space, until nothing is
left -/
def extract (sp : Char → Bool) (s : Str) : List Str :=
  match h : s.dropWhile sp with
  | [] => []
  | c :: cs =>
    have : (cs.dropWhile fun c => !sp c).length < s.length := by
      have h1 : (s.dropWhile sp).length ≤ s.length := (List.dropWhile_sublist sp).length_le
      have h2 : (cs.dropWhile fun c => !sp c).length ≤ cs.length :=
        (List.dropWhile_sublist _).length_le
      rw [h] at h1; simp at h1; omega
    (c :: cs.takeWhile fun c => !sp c) :: extract sp (cs.dropWhile fun c => !sp c)
termination_by s.length

/-- `rc[d]` with a negative `d` writes before the table -/
def split (s : Str) (delims : List Char) : Outcome (List Str) :=
  if s = [] then .ok []
  else if delims.any (fun d => d.toNat ≥ 128) then .ub
  else .ok (extract (tableSpace delims) s)

/-! ## `num_digits`, lines 183-195, and `zero_padded`, lines 200-207 -/

/-- `while (number) { number /= 10; digits++; }` -/
def digitsLoop (number digits : Nat) : Nat :=
  if number = 0 then digits else digitsLoop (number / 10) (digits + 1)
termination_by number
decreasing_by omega

/-- `num_digits`, string_utils.h:183-195 -/
def numDigits (n : Nat) : Nat := digitsLoop (n / 10) 1

/-- the digit characters -/
def digitChar (d : Nat) : Char := Char.ofNat (48 + d)

/-- what `ss << n` writes for an unsigned `n`: decimal digits, no leading zero -/
def decimal (n : Nat) : Str :=
  if n < 10 then [digitChar n] else decimal (n / 10) ++ [digitChar (n % 10)]
termination_by n
decreasing_by omega

/-- `setw(padding)`, `setfill('0')`: pad on the left up to the width (`padding` below 2^31) -/
def zeroPadded (n : Nat) (padding : Nat := 6) : Str :=
  List.replicate (padding - (decimal n).length) '0' ++ decimal n

end Verif.Strings
