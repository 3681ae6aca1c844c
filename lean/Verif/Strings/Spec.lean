/-!
# Specification of the string functions, independent of the model
-/

namespace Verif.Strings.Spec

/-- text -/
abbrev Str := List Char

/-- `s = p ++ pat ++ r` with `p` as short as possible -/
def FirstOccurrence (pat s p r : Str) : Prop :=
  s = p ++ pat ++ r ∧ ∀ p' r', s = p' ++ pat ++ r' → p.length ≤ p'.length

/-- `s'` is `s` with every occurrence of `frm`, taken from left to right without overlap,
replaced by `to`; replaced text is not searched again -/
inductive Replaced (frm to : Str) : Str → Str → Prop
  | done (s : Str) : (∀ p r, s ≠ p ++ frm ++ r) → Replaced frm to s s
  | step (s p r r' : Str) : FirstOccurrence frm s p r → Replaced frm to r r' →
      Replaced frm to s (p ++ to ++ r')

/-- `ts` are the maximal delimiter-free pieces of `s`, in order -/
inductive IsSplit (d : Char → Prop) : Str → List Str → Prop
  | done (s : Str) : (∀ c ∈ s, d c) → IsSplit d s []
  | token (pre t rest : Str) (ts : List Str) : (∀ c ∈ pre, d c) → t ≠ [] → (∀ c ∈ t, ¬ d c) →
      (∀ c cs, rest = c :: cs → d c) → IsSplit d rest ts → IsSplit d (pre ++ t ++ rest) (t :: ts)

/-- value of a string of decimal digits -/
def value (s : Str) : Nat := s.foldl (fun acc c => 10 * acc + (c.toNat - 48)) 0

/-- only decimal digits -/
def AllDigits (s : Str) : Prop := ∀ c ∈ s, 48 ≤ c.toNat ∧ c.toNat ≤ 57

end Verif.Strings.Spec
