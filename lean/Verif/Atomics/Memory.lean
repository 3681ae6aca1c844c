import Verif.Atomics.Calls
import Mathlib.Order.Lattice

/-!
# Updates of atomic variables and plain data: the C++ memory model

`Verif.Atomics.Model` is about the values of the atomic variables.  This model adds the plain
data that threads hand to each other, and what the memory orders of an update say about it: an
operational form of the release/acquire part of the C++ memory model.

* Each atomic variable keeps all its values in modification order, each with the knowledge
  (`View`) that an acquiring read of it passes on.  An update reads the newest value and adds the
  next one; the new value also passes on what its predecessor did (a release sequence, which every
  update continues, whatever its order).
* Each thread has a `View`: for each variable how far in its modification order the thread has
  seen, and for each thread how many of its plain accesses happen before now (a vector clock).
* Two plain accesses of one object, one of them a write, neither of which happens before the
  other, are a data race, which is undefined behaviour: `Race`.

Compared to C++: `seq_cst` is treated as acquiring and releasing (its total order is not used,
which allows more executions); `consume` as relaxed, which it is for accesses that carry no
dependency; every value of a variable comes from the initial one, from updates through this library, or
from plain writes under `lock` and `serial` (`std::atomic`'s own `store` is not modelled); no fences; reads
do not take values from writes that come later in the interleaving (C++ allows this for relaxed
orders on several variables).  A mixture of plain and atomic accesses of one variable is not
reported as a race.
-/

namespace Verif.Atomics

/-- what is known of the modification orders of the variables, and of the threads' plain accesses -/
abbrev View (ι V : Type) := V ⊕ ι → Nat

/-- one value of an atomic variable and what it passes on to an acquiring read -/
structure Msg (ι V T : Type) where
  val : T
  view : View ι V

/-- the orders that acquire.  `consume` is only for accesses that carry a dependency -/
def MemOrder.acquires : MemOrder → Bool
  | .acquire => true
  | .acqRel => true
  | .seqCst => true
  | _ => false

/-- the orders that release -/
def MemOrder.releases : MemOrder → Bool
  | .release => true
  | .acqRel => true
  | .seqCst => true
  | _ => false

/-- the order of the read-modify-write: `sync`, or `success` (atomics.h:545-602, 765-807,
atomics-macro-class.h:37) -/
def Used.order : Used → MemOrder
  | .rmw o => o
  | .cas o => o
  | .cas2 s _ => s
  | .no => .relaxed

/-- the order of a failed compare-exchange: derived from `sync`, or `failure` (atomics.h:572, 599) -/
def Used.failOrder : Used → MemOrder
  | .cas o => failureOrder o
  | .cas2 _ f => f
  | _ => .relaxed

/-- what a call compiles to, see `compile` -/
abbrev Compiled (T : Type) := Scheme × (T → T × T) × Used

/-- what a thread does: plain writes and reads of data, and updates of atomic variables; what comes
next may depend on what was read and returned -/
inductive Prog (V D T X : Type)
  | done
  | put (d : D) (v : X) (k : Prog V D T X)
  | get (d : D) (k : X → Prog V D T X)
  | update (x : V) (c : Compiled T) (k : T → Prog V D T X)

/-- a thread: what it has still to do, how far it is in the first of it, and what it knows -/
structure MThread (ι V D T X : Type) where
  prog : Prog V D T X
  pc : Pc T
  view : View ι V

/-- shared memory and threads.  `hist x` are the values of `x`, oldest first; `wr o j` and `rd o j`
tell which was thread `j`'s last plain write and read of the object `o`; `mview` is what a thread
learns by locking the mutex -/
structure MState (ι V D T X : Type) where
  hist : V → List (Msg ι V T)
  dat : D → X
  wr : V ⊕ D → ι → Nat
  rd : V ⊕ D → ι → Nat
  mutex : Option ι
  mview : View ι V
  thr : ι → MThread ι V D T X

/-- what a step does -/
inductive Act (V D T X : Type)
  /-- reads value number `t` of `x`, with order `o`, and stores nothing -/
  | load (x : V) (t : Nat) (o : MemOrder)
  /-- reads value number `t` of `x` and stores value number `t + 1`, with order `o` -/
  | rmw (x : V) (t : Nat) (o : MemOrder)
  | lock
  | unlock
  | plainRead (x : V)
  | plainWrite (x : V)
  | put (d : D) (v : X)
  | get (d : D) (v : X)

section
variable {ι V D T X : Type} [DecidableEq ι] [DecidableEq V] [DecidableEq D]

/-- knowing one entry -/
def View.one (l : V ⊕ ι) (n : Nat) : View ι V := fun l' => if l' = l then n else 0

/-- what reading `m` with order `o` adds to a thread's knowledge -/
def Msg.acquired (m : Msg ι V T) (o : MemOrder) : View ι V := if o.acquires then m.view else fun _ => 0

/-- thread `i` moves on -/
def MState.set (s : MState ι V D T X) (i : ι) (p : Prog V D T X) (pc : Pc T) (w : View ι V) : MState ι V D T X :=
  { s with thr := Function.update s.thr i ⟨p, pc, w⟩ }

/-- what a thread knows after reading value number `t` of `x`, which is `m`, with order `o` -/
def afterLoad (w : View ι V) (x : V) (t : Nat) (m : Msg ι V T) (o : MemOrder) : View ι V :=
  w ⊔ View.one (.inl x) t ⊔ m.acquired o

/-- the value stored by an update that read `m`, value number `t`, with order `o`, by a thread that
knew `w` -/
def nextMsg (w : View ι V) (x : V) (t : Nat) (m : Msg ι V T) (o : MemOrder) (new : T) : Msg ι V T :=
  ⟨new, m.view ⊔ View.one (.inl x) (t + 1) ⊔ (if o.releases then afterLoad w x (t + 1) m o else fun _ => 0)⟩

/-- an update by thread `i` of `x`, whose newest value is `m`, number `t` -/
def MState.rmw (s : MState ι V D T X) (i : ι) (x : V) (t : Nat) (m : Msg ι V T) (o : MemOrder) (new : T)
    (p : Prog V D T X) (pc : Pc T) : MState ι V D T X :=
  { s with hist := Function.update s.hist x (s.hist x ++ [nextMsg (s.thr i).view x t m o new]),
           thr := Function.update s.thr i ⟨p, pc, afterLoad (s.thr i).view x (t + 1) m o⟩ }

/-- `m` is value number `t` of `x` -/
def MState.Has (s : MState ι V D T X) (x : V) (t : Nat) (m : Msg ι V T) : Prop := (s.hist x)[t]? = some m

/-- `m`, number `t`, is the newest value of `x` -/
def MState.Newest (s : MState ι V D T X) (x : V) (t : Nat) (m : Msg ι V T) : Prop :=
  s.Has x t m ∧ (s.hist x).length = t + 1

/-- a load by thread `i` may return value number `t` of `x`: any but those older than one the thread
knows of (coherence) -/
def MState.MayRead (s : MState ι V D T X) (i : ι) (x : V) (t : Nat) (m : Msg ι V T) : Prop :=
  s.Has x t m ∧ (s.thr i).view (.inl x) ≤ t

/-- all plain writes of `o` so far, and with `w` also all plain reads, happen before now in
thread `i` -/
def MState.Clear (s : MState ι V D T X) (i : ι) (o : V ⊕ D) (w : Bool) : Prop :=
  (∀ j, s.wr o j ≤ (s.thr i).view (.inr j)) ∧ (w = true → ∀ j, s.rd o j ≤ (s.thr i).view (.inr j))

/-- thread `i`'s knowledge with one more plain access of its own -/
def MState.tick (s : MState ι V D T X) (i : ι) : View ι V :=
  Function.update (s.thr i).view (.inr i) ((s.thr i).view (.inr i) + 1)

/-- a plain access by `i` is recorded -/
def note (f : V ⊕ D → ι → Nat) (o : V ⊕ D) (i : ι) (n : Nat) : V ⊕ D → ι → Nat :=
  Function.update f o (Function.update (f o) i n)

/-- a plain write by thread `i` -/
def MState.noteWr (s : MState ι V D T X) (i : ι) (o : V ⊕ D) : MState ι V D T X :=
  { s with wr := note s.wr o i ((s.thr i).view (.inr i) + 1) }

/-- a plain read by thread `i` -/
def MState.noteRd (s : MState ι V D T X) (i : ι) (o : V ⊕ D) : MState ι V D T X :=
  { s with rd := note s.rd o i ((s.thr i).view (.inr i) + 1) }

/-- a plain write of an atomic variable through `ref()`, atomics.h:956 and 980: it passes nothing on -/
def MState.push (s : MState ι V D T X) (x : V) (v : T) : MState ι V D T X :=
  { s with hist := Function.update s.hist x (s.hist x ++ [⟨v, fun _ => 0⟩]) }

/-- one step of thread `i`, if it is not a data race -/
inductive MStep (s : MState ι V D T X) (i : ι) : Act V D T X → MState ι V D T X → Prop
  /-- atomics.h:555, 593, 775, 798: `T old = T(atom);`, where the conversion is `load()` with the default
  order, atomics.h:1537-1538 -/
  | load (x : V) (c : Compiled T) (k : T → Prog V D T X) (t : Nat) (m : Msg ι V T) (w : View ι V) :
      s.thr i = ⟨.update x c k, .idle, w⟩ → (c.1 = .strong ∨ c.1 = .weak) → s.MayRead i x t m →
      MStep s i (.load x t .seqCst) (s.set i (.update x c k) (.loaded m.val) (afterLoad w x t m .seqCst))
  /-- atomics.h:558-572, 594-599, 778-781: a successful `compare_exchange` -/
  | casOk (x : V) (c : Compiled T) (k : T → Prog V D T X) (t : Nat) (m : Msg ι V T) (w : View ι V) :
      s.thr i = ⟨.update x c k, .loaded m.val, w⟩ → s.Newest x t m →
      MStep s i (.rmw x t c.2.2.order) (s.rmw i x t m c.2.2.order (c.2.1 m.val).1 (k (c.2.1 m.val).2) .idle)
  /-- a failed `compare_exchange` loads the value it saw -/
  | casFail (x : V) (c : Compiled T) (k : T → Prog V D T X) (old : T) (t : Nat) (m : Msg ι V T) (w : View ι V) :
      s.thr i = ⟨.update x c k, .loaded old, w⟩ → s.MayRead i x t m → (c.1 = .strong → m.val ≠ old) →
      MStep s i (.load x t c.2.2.failOrder)
        (s.set i (.update x c k) (.loaded m.val) (afterLoad w x t m c.2.2.failOrder))
  /-- atomics-macro-class.h:37: `atom.fetch_xxx(val,sync);` -/
  | fetch (x : V) (c : Compiled T) (k : T → Prog V D T X) (t : Nat) (m : Msg ι V T) (w : View ι V) :
      s.thr i = ⟨.update x c k, .idle, w⟩ → c.1 = .native → s.Newest x t m →
      MStep s i (.rmw x t c.2.2.order) (s.rmw i x t m c.2.2.order (c.2.1 m.val).1 (.update x c k) .fetched)
  /-- atomics-macro-class.h:38: `return T(atom);`, a load with the default order -/
  | reload (x : V) (c : Compiled T) (k : T → Prog V D T X) (t : Nat) (m : Msg ι V T) (w : View ι V) :
      s.thr i = ⟨.update x c k, .fetched, w⟩ → s.MayRead i x t m →
      MStep s i (.load x t .seqCst) (s.set i (k m.val) .idle (afterLoad w x t m .seqCst))
  /-- atomics-macro-class-prepost.h:20-37: `return ++atom;` and its like -/
  | unary (x : V) (c : Compiled T) (k : T → Prog V D T X) (t : Nat) (m : Msg ι V T) (w : View ι V) :
      s.thr i = ⟨.update x c k, .idle, w⟩ → c.1 = .unary → s.Newest x t m →
      MStep s i (.rmw x t c.2.2.order) (s.rmw i x t m c.2.2.order (c.2.1 m.val).1 (k (c.2.1 m.val).2) .idle)
  /-- atomics.h:955: the guard locks the mutex, learning what was known at its last unlock -/
  | lock (x : V) (c : Compiled T) (k : T → Prog V D T X) (w : View ι V) :
      s.thr i = ⟨.update x c k, .idle, w⟩ → c.1 = .lock → s.mutex = none →
      MStep s i .lock ({ s with mutex := some i }.set i (.update x c k) .locked (w ⊔ s.mview))
  /-- atomics.h:956: `operation(atom.ref())` reads -/
  | lockRead (x : V) (c : Compiled T) (k : T → Prog V D T X) (t : Nat) (m : Msg ι V T) (w : View ι V) :
      s.thr i = ⟨.update x c k, .locked, w⟩ → s.Newest x t m → s.Clear i (.inl x) false →
      MStep s i (.plainRead x) ((s.noteRd i (.inl x)).set i (.update x c k) (.lockRead m.val) (s.tick i))
  /-- and writes -/
  | lockWrite (x : V) (c : Compiled T) (k : T → Prog V D T X) (old : T) (w : View ι V) :
      s.thr i = ⟨.update x c k, .lockRead old, w⟩ → s.Clear i (.inl x) true →
      MStep s i (.plainWrite x)
        (((s.noteWr i (.inl x)).push x (c.2.1 old).1).set i (.update x c k) (.lockWrote (c.2.1 old).2) (s.tick i))
  /-- the guard's destructor unlocks, and the call returns -/
  | unlock (x : V) (c : Compiled T) (k : T → Prog V D T X) (r : T) (w : View ι V) :
      s.thr i = ⟨.update x c k, .lockWrote r, w⟩ →
      MStep s i .unlock ({ s with mutex := none, mview := s.mview ⊔ w }.set i (k r) .idle w)
  /-- atomics.h:972-981: `return operation(atom.ref());` reads -/
  | serRead (x : V) (c : Compiled T) (k : T → Prog V D T X) (t : Nat) (m : Msg ι V T) (w : View ι V) :
      s.thr i = ⟨.update x c k, .idle, w⟩ → c.1 = .serial → s.Newest x t m → s.Clear i (.inl x) false →
      MStep s i (.plainRead x) ((s.noteRd i (.inl x)).set i (.update x c k) (.serRead m.val) (s.tick i))
  /-- and writes -/
  | serWrite (x : V) (c : Compiled T) (k : T → Prog V D T X) (old : T) (w : View ι V) :
      s.thr i = ⟨.update x c k, .serRead old, w⟩ → s.Clear i (.inl x) true →
      MStep s i (.plainWrite x)
        (((s.noteWr i (.inl x)).push x (c.2.1 old).1).set i (k (c.2.1 old).2) .idle (s.tick i))
  /-- the user's own write of plain data -/
  | put (d : D) (v : X) (k : Prog V D T X) (w : View ι V) :
      s.thr i = ⟨.put d v k, .idle, w⟩ → s.Clear i (.inr d) true →
      MStep s i (.put d v) ({ s.noteWr i (.inr d) with dat := Function.update s.dat d v }.set i k .idle (s.tick i))
  /-- and read -/
  | get (d : D) (k : X → Prog V D T X) (w : View ι V) :
      s.thr i = ⟨.get d k, .idle, w⟩ → s.Clear i (.inr d) false →
      MStep s i (.get d (s.dat d)) ((s.noteRd i (.inr d)).set i (k (s.dat d)) .idle (s.tick i))

/-- the next thing thread `i` does is a data race with something that was done before -/
inductive Race (s : MState ι V D T X) (i : ι) : Prop
  | lockRead (x : V) (c : Compiled T) (k : T → Prog V D T X) (w : View ι V) :
      s.thr i = ⟨.update x c k, .locked, w⟩ → ¬ s.Clear i (.inl x) false → Race s i
  | lockWrite (x : V) (c : Compiled T) (k : T → Prog V D T X) (old : T) (w : View ι V) :
      s.thr i = ⟨.update x c k, .lockRead old, w⟩ → ¬ s.Clear i (.inl x) true → Race s i
  | serRead (x : V) (c : Compiled T) (k : T → Prog V D T X) (w : View ι V) :
      s.thr i = ⟨.update x c k, .idle, w⟩ → c.1 = .serial → ¬ s.Clear i (.inl x) false → Race s i
  | serWrite (x : V) (c : Compiled T) (k : T → Prog V D T X) (old : T) (w : View ι V) :
      s.thr i = ⟨.update x c k, .serRead old, w⟩ → ¬ s.Clear i (.inl x) true → Race s i
  | put (d : D) (v : X) (k : Prog V D T X) (w : View ι V) :
      s.thr i = ⟨.put d v k, .idle, w⟩ → ¬ s.Clear i (.inr d) true → Race s i
  | get (d : D) (k : X → Prog V D T X) (w : View ι V) :
      s.thr i = ⟨.get d k, .idle, w⟩ → ¬ s.Clear i (.inr d) false → Race s i

/-- any number of steps by any threads, with what they do -/
inductive MExec (s : MState ι V D T X) : List (ι × Act V D T X) → MState ι V D T X → Prop
  | nil : MExec s [] s
  | snoc {tr s1 s2 a} (i : ι) : MExec s tr s1 → MStep s1 i a s2 → MExec s (tr ++ [(i, a)]) s2

/-- all threads at the beginning of their programs, knowing the initial values -/
def minit (m0 : V → T) (d0 : D → X) (progs : ι → Prog V D T X) : MState ι V D T X :=
  { hist := fun x => [⟨m0 x, fun _ => 0⟩], dat := d0, wr := fun _ _ => 0, rd := fun _ _ => 0, mutex := none,
    mview := fun _ => 0, thr := fun i => ⟨progs i, .idle, fun _ => 0⟩ }

/-- a program none of whose executions has a data race -/
def RaceFree (m0 : V → T) (d0 : D → X) (progs : ι → Prog V D T X) : Prop :=
  ∀ tr s i, MExec (minit m0 d0 progs) tr s → ¬ Race s i

end

end Verif.Atomics
