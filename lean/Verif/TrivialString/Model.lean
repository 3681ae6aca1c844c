import Verif.Common.Outcome

/-!
# Model of `ristra/utils/trivial_string.h`

The buffer `std::array<char,N>` (line 71) is a list of length `N`; its initial contents are
arbitrary.
-/

namespace Verif.TrivialString

/-- the NUL character -/
abbrev nul : Char := Char.ofNat 0

/-- `strcpy` of `str.c_str()`, trivial_string.h:77-83: writes the characters up to the first NUL of the
string and a NUL; undefined when that does not fit into the `N` characters. -/
def toTrivial (buf : List Char) (s : List Char) : Outcome (List Char) :=
  let body := s.takeWhile (· != nul)
  if body.length + 1 ≤ buf.length then
    .ok (body ++ nul :: buf.drop (body.length + 1))
  else .ub

/-- `str()`, trivial_string.h:57: reads up to the first NUL; undefined when there is none. -/
def str (buf : List Char) : Outcome (List Char) :=
  if nul ∈ buf then .ok (buf.takeWhile (· != nul)) else .ub

/-- `operator[]`, trivial_string.h:37-48: the assertion is `n <= size()` -/
def get (buf : List Char) (n : Nat) : Outcome Char :=
  if n ≤ buf.length then
    match buf[n]? with
    | some c => .ok c
    | none => .ub
  else .assertFail

end Verif.TrivialString
