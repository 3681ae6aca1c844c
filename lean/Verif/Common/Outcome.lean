/-!
# Outcomes of a modelled C++ call

Shared by all models.  A call either returns a value, or ends in one of the
observable failures below, or is undefined behaviour.
-/

namespace Verif

/-- What a modelled C++ call can do. -/
inductive Outcome (α : Type u) where
  /-- returns normally -/
  | ok (a : α)
  /-- an `assert(...)` in the code is violated (the process aborts) -/
  | assertFail
  /-- throws `std::out_of_range` -/
  | outOfRange
  /-- throws some other exception, tagged by the modelled kind -/
  | throws (kind : String)
  /-- the C++ standard gives no meaning to what the code does -/
  | ub
  /-- the call never returns -/
  | diverges
deriving Repr, DecidableEq

namespace Outcome

/-- Sequencing: the first failure wins. -/
def bind (x : Outcome α) (f : α → Outcome β) : Outcome β :=
  match x with
  | .ok a => f a
  | .assertFail => .assertFail
  | .outOfRange => .outOfRange
  | .throws k => .throws k
  | .ub => .ub
  | .diverges => .diverges

instance : Monad Outcome where
  pure := .ok
  bind := Outcome.bind

/-- `assert(b)` -/
def assert (b : Bool) : Outcome Unit := if b then .ok () else .assertFail

@[simp] theorem bind_ok (a : α) (f : α → Outcome β) : (Outcome.ok a >>= f) = f a := rfl
@[simp] theorem bind_assertFail (f : α → Outcome β) :
    ((Outcome.assertFail : Outcome α) >>= f) = .assertFail := rfl
@[simp] theorem bind_outOfRange (f : α → Outcome β) :
    ((Outcome.outOfRange : Outcome α) >>= f) = .outOfRange := rfl
@[simp] theorem bind_ub (f : α → Outcome β) : ((Outcome.ub : Outcome α) >>= f) = .ub := rfl
@[simp] theorem bind_throws (k : String) (f : α → Outcome β) :
    ((Outcome.throws k : Outcome α) >>= f) = .throws k := rfl
@[simp] theorem bind_diverges (f : α → Outcome β) :
    ((Outcome.diverges : Outcome α) >>= f) = .diverges := rfl
@[simp] theorem pure_eq (a : α) : (pure a : Outcome α) = .ok a := rfl
@[simp] theorem assert_true : assert true = .ok () := rfl
@[simp] theorem assert_false : assert false = .assertFail := rfl

end Outcome
end Verif
