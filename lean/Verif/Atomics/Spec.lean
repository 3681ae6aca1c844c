import Verif.Atomics.Model

/-!
# What it means for concurrent updates to be atomic

Stated over the observable events only.
-/

namespace Verif.Atomics

variable {ι V T : Type} [DecidableEq ι] [DecidableEq V]

/-- the thread an event belongs to -/
def Event.who : Event ι V T → ι
  | .invoke i => i
  | .fail i => i
  | .commit i _ _ => i
  | .ret i _ => i

/-- the events of one thread -/
def proj (i : ι) (tr : List (Event ι V T)) : List (Event ι V T) := tr.filter (fun e => e.who = i)

/-- the updates that took effect, in that order, with the value each operation returned -/
def commits : List (Event ι V T) → List (ι × Op V T × T)
  | [] => []
  | .commit i op r :: tr => (i, op, r) :: commits tr
  | _ :: tr => commits tr

/-- the updates are executed one at a time, in the order of the list, starting from memory `m`
and ending in `m'`; each returns the value recorded -/
def Serial (m : V → T) : List (ι × Op V T × T) → (V → T) → Prop
  | [], m' => m' = m
  | (_, op, r) :: l, m' =>
    r = (op.f (m op.var)).2 ∧ Serial (Function.update m op.var (op.f (m op.var)).1) l m'

/-- the updates of one thread in the list -/
def opsOf (i : ι) (l : List (ι × Op V T × T)) : List (Op V T) := (l.filter (fun e => e.1 = i)).map (·.2.1)

/-- the event sequence of one thread that has made exactly these calls, one after the other:
each call begins, perhaps retries, takes effect once, and returns the value of that effect -/
inductive Calls (i : ι) : List (Op V T) → List (Event ι V T) → Prop
  | nil : Calls i [] []
  | snoc {ops : List (Op V T)} {tr : List (Event ι V T)} (op : Op V T) (r : T) (k : Nat) : Calls i ops tr →
      Calls i (ops ++ [op]) (tr ++ (.invoke i :: (List.replicate k (.fail i) ++ [.commit i op r, .ret i r])))

/-! ## basic facts -/

theorem commits_append (a b : List (Event ι V T)) : commits (a ++ b) = commits a ++ commits b := by
  induction a with
  | nil => rfl
  | cons e a ih => cases e <;> simp [commits, ih]

theorem serial_append (m m' : V → T) (l l' : List (ι × Op V T × T)) :
    Serial m (l ++ l') m' ↔ ∃ m1, Serial m l m1 ∧ Serial m1 l' m' := by
  induction l generalizing m with
  | nil => simp [Serial]
  | cons e l ih =>
    obtain ⟨i, op, r⟩ := e
    simp only [List.cons_append, Serial, ih]
    constructor
    · rintro ⟨h, m1, h1, h2⟩; exact ⟨m1, ⟨h, h1⟩, h2⟩
    · rintro ⟨m1, ⟨h, h1⟩, h2⟩; exact ⟨h, m1, h1, h2⟩

theorem serial_snoc {m m1 : V → T} {l : List (ι × Op V T × T)} (h : Serial m l m1) (i : ι) (op : Op V T) :
    Serial m (l ++ [(i, op, (op.f (m1 op.var)).2)]) (Function.update m1 op.var (op.f (m1 op.var)).1) :=
  (serial_append _ _ _ _).mpr ⟨m1, h, rfl, rfl⟩

theorem opsOf_append (i : ι) (a b : List (ι × Op V T × T)) : opsOf i (a ++ b) = opsOf i a ++ opsOf i b := by
  simp [opsOf]

theorem opsOf_single (i j : ι) (op : Op V T) (r : T) : opsOf i [(j, op, r)] = if j = i then [op] else [] := by
  by_cases h : j = i <;> simp [opsOf, h]

theorem proj_append (i : ι) (a b : List (Event ι V T)) : proj i (a ++ b) = proj i a ++ proj i b := by simp [proj]

theorem proj_own {i : ι} {ev : List (Event ι V T)} (h : ∀ e ∈ ev, e.who = i) : proj i ev = ev := by
  rw [proj, List.filter_eq_self]
  intro e he
  simp [h e he]

theorem proj_other {i j : ι} {ev : List (Event ι V T)} (h : ∀ e ∈ ev, e.who = j) (hij : i ≠ j) : proj i ev = [] := by
  rw [proj, List.filter_eq_nil_iff]
  intro e he
  simp [h e he, hij.symm]

/-- a step touches only its own thread and emits only its own events -/
theorem step_frame {sc : Bool} {s s' : State ι V T} {j : ι} {ev : List (Event ι V T)} (h : Step sc s j ev s') :
    (∀ i, i ≠ j → s'.thr i = s.thr i) ∧ ∀ e ∈ ev, e.who = j := by
  cases h <;> refine ⟨fun i hi => ?_, ?_⟩ <;>
    first | simp [State.setThr, State.write, Function.update_of_ne hi] | simp [Event.who]

theorem commits_of_calls {i : ι} {ops : List (Op V T)} {tr : List (Event ι V T)} (h : Calls i ops tr) :
    (commits tr).map (·.2.1) = ops := by
  induction h with
  | nil => rfl
  | snoc op r k _ ih =>
    have : commits (ι := ι) (V := V) (T := T)
        (.invoke i :: (List.replicate k (.fail i) ++ [.commit i op r, .ret i r])) = [(i, op, r)] := by
      simp only [commits]
      induction k with
      | zero => simp [commits]
      | succ k ih => simpa [List.replicate_succ, commits] using ih
    rw [commits_append, List.map_append, ih, this]
    rfl

end Verif.Atomics
