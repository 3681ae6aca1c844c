import Mathlib.Logic.Function.Basic
import Mathlib.Order.Defs.LinearOrder
import Mathlib.Data.Rat.Floor

/-!
# Model of `ristra/atomics/src/atomics.h`: concurrent updates of atomic variables

A transition system: any number of threads, each running a program (a list of updates), over
shared variables of one `atomic<T,SCHEME,NMUX>` type, which share one mutex (1483-1497).  One
step is one access to shared memory; the scheduler is arbitrary.

A value of `T` stands for its object representation, which is what compare-exchange compares;
the punned schemes (605-740, 810-925) compare the same bits through an integer type of the same
size, see `punOp`.

Memory orders: every variable keeps all the values it has held.  Read-modify-write operations
act on the newest one, which C++ guarantees for every memory order.  With `sc = true`, plain
loads and failed compare-exchanges also see the newest value (the default order); with
`sc = false` they may see any value the variable ever held, which over-approximates all weaker
orders of operations on one variable.  With several variables, orders weaker than acquire/release
also let a thread's operations on different variables take effect out of program order; that is not
modelled, so for `sc = false` read the theorems with one variable (`V` with one element), each
thread's program being its operations on that variable.

Not modelled: exceptions inside an operation (the functions are `noexcept`), the debug printing,
the volatile overloads (same text), `std::atomic`'s own operations, padding bits in `T`.
-/

namespace Verif.Atomics

/-- the schemes, atomics.h:77-105, as selected by `get_scheme`, atomics.h:198-233.  `native` is `cpp` or
`kokkos` for a binary operation (`+=` ...), which fetches and then loads again for the returned
value; `unary` is `cpp` for `++`/`--`, which is one operation -/
inductive Scheme
  | strong
  | weak
  | native
  | unary
  | lock
  | serial
deriving DecidableEq, Repr

/-- one update: the scheme it uses, the variable, and the operation: from the old value to the
new value and the value `operation(neu)` returns -/
structure Op (V T : Type) where
  scheme : Scheme
  var : V
  f : T → T × T

/-- where a thread is within its current update -/
inductive Pc (T : Type)
  | idle
  /-- in the do-loop of a compare-exchange scheme, holding `old` -/
  | loaded (old : T)
  /-- native scheme, after `fetch_xxx`, before `return T(atom)` -/
  | fetched
  /-- lock scheme: mutex held, operation not begun -/
  | locked
  /-- lock scheme: mutex held, old value read, new one not written -/
  | lockRead (old : T)
  /-- lock scheme: mutex held, new value written -/
  | lockWrote (ret : T)
  /-- serial scheme: old value read, new one not written -/
  | serRead (old : T)
deriving DecidableEq, Repr

/-- a thread: the calls it has still to make and how far it is in the first of them -/
structure Thread (V T : Type) where
  todo : List (Op V T)
  pc : Pc T

/-- shared memory and threads; `past v` are the older values of `v`, newest first -/
structure State (ι V T : Type) where
  cur : V → T
  past : V → List T
  mutex : Option ι
  thr : ι → Thread V T

/-- what can be observed of a step -/
inductive Event (ι V T : Type)
  /-- the call begins -/
  | invoke (i : ι)
  /-- a compare-exchange attempt fails -/
  | fail (i : ι)
  /-- the new value becomes visible; `r` is what the operation returned -/
  | commit (i : ι) (op : Op V T) (r : T)
  /-- the call returns `r` -/
  | ret (i : ι) (r : T)

section
variable {ι V T : Type} [DecidableEq ι] [DecidableEq V]

/-- thread `i` moves on within its program -/
def State.setThr (s : State ι V T) (i : ι) (todo : List (Op V T)) (pc : Pc T) : State ι V T :=
  { s with thr := Function.update s.thr i ⟨todo, pc⟩ }

/-- variable `v` takes the value `x` -/
def State.write (s : State ι V T) (v : V) (x : T) : State ι V T :=
  { s with cur := Function.update s.cur v x, past := Function.update s.past v (s.cur v :: s.past v) }

/-- the values a load of `v` may return -/
def Readable (sc : Bool) (s : State ι V T) (v : V) (x : T) : Prop :=
  x = s.cur v ∨ (sc = false ∧ x ∈ s.past v)

/-- one step of thread `i` -/
inductive Step (sc : Bool) (s : State ι V T) (i : ι) : List (Event ι V T) → State ι V T → Prop
  /-- atomics.h:555, 775: `T old = T(atom);` -/
  | load (op : Op V T) (rest : List (Op V T)) (x : T) :
      s.thr i = ⟨op :: rest, .idle⟩ → (op.scheme = .strong ∨ op.scheme = .weak) → Readable sc s op.var x →
      Step sc s i [.invoke i] (s.setThr i (op :: rest) (.loaded x))
  /-- atomics.h:558-572, 778-781: `neu = old; ret = operation(neu);` and a successful
  `compare_exchange(old, neu)`: the variable held `old` -/
  | casOk (op : Op V T) (rest : List (Op V T)) (old : T) :
      s.thr i = ⟨op :: rest, .loaded old⟩ → s.cur op.var = old →
      Step sc s i [.commit i op (op.f old).2, .ret i (op.f old).2]
        ((s.write op.var (op.f old).1).setThr i rest .idle)
  /-- a failed compare-exchange loads the value it saw into `old`; the strong one fails only on
  a different value, the weak one may fail spuriously -/
  | casFail (op : Op V T) (rest : List (Op V T)) (old x : T) :
      s.thr i = ⟨op :: rest, .loaded old⟩ → Readable sc s op.var x → (op.scheme = .strong → x ≠ old) →
      Step sc s i [.fail i] (s.setThr i (op :: rest) (.loaded x))
  /-- atomics-macro-class.h:37: `atom.fetch_xxx(val,sync);` -/
  | fetch (op : Op V T) (rest : List (Op V T)) :
      s.thr i = ⟨op :: rest, .idle⟩ → op.scheme = .native →
      Step sc s i [.invoke i, .commit i op (op.f (s.cur op.var)).2]
        ((s.write op.var (op.f (s.cur op.var)).1).setThr i (op :: rest) .fetched)
  /-- atomics-macro-class.h:38: `return T(atom);` -/
  | reload (op : Op V T) (rest : List (Op V T)) (x : T) :
      s.thr i = ⟨op :: rest, .fetched⟩ → Readable sc s op.var x →
      Step sc s i [.ret i x] (s.setThr i rest .idle)
  /-- atomics-macro-class-prepost.h:20-37: `return ++atom;` and its like -/
  | unary (op : Op V T) (rest : List (Op V T)) :
      s.thr i = ⟨op :: rest, .idle⟩ → op.scheme = .unary →
      Step sc s i [.invoke i, .commit i op (op.f (s.cur op.var)).2, .ret i (op.f (s.cur op.var)).2]
        ((s.write op.var (op.f (s.cur op.var)).1).setThr i rest .idle)
  /-- atomics.h:948-955: `std::lock_guard<std::mutex> lock(...);` -/
  | acquire (op : Op V T) (rest : List (Op V T)) :
      s.thr i = ⟨op :: rest, .idle⟩ → op.scheme = .lock → s.mutex = none →
      Step sc s i [.invoke i] ({ s with mutex := some i }.setThr i (op :: rest) .locked)
  /-- atomics.h:956: `operation(atom.ref())` reads -/
  | lockRead (op : Op V T) (rest : List (Op V T)) :
      s.thr i = ⟨op :: rest, .locked⟩ → Step sc s i [] (s.setThr i (op :: rest) (.lockRead (s.cur op.var)))
  /-- and writes -/
  | lockWrite (op : Op V T) (rest : List (Op V T)) (old : T) :
      s.thr i = ⟨op :: rest, .lockRead old⟩ →
      Step sc s i [.commit i op (op.f old).2]
        ((s.write op.var (op.f old).1).setThr i (op :: rest) (.lockWrote (op.f old).2))
  /-- the guard's destructor, and the return -/
  | release (op : Op V T) (rest : List (Op V T)) (r : T) :
      s.thr i = ⟨op :: rest, .lockWrote r⟩ →
      Step sc s i [.ret i r] ({ s with mutex := none }.setThr i rest .idle)
  /-- atomics.h:972-981: `return operation(atom.ref());` with no protection: it reads -/
  | serRead (op : Op V T) (rest : List (Op V T)) :
      s.thr i = ⟨op :: rest, .idle⟩ → op.scheme = .serial →
      Step sc s i [.invoke i] (s.setThr i (op :: rest) (.serRead (s.cur op.var)))
  /-- and writes.  Two threads doing this at once are a data race, which C++ leaves undefined;
  the model shows only the interleavings -/
  | serWrite (op : Op V T) (rest : List (Op V T)) (old : T) :
      s.thr i = ⟨op :: rest, .serRead old⟩ →
      Step sc s i [.commit i op (op.f old).2, .ret i (op.f old).2]
        ((s.write op.var (op.f old).1).setThr i rest .idle)

/-- any number of steps by any threads, with the events they emit -/
inductive Exec (sc : Bool) (s : State ι V T) : List (Event ι V T) → State ι V T → Prop
  | nil : Exec sc s [] s
  | snoc {tr s1 s2 ev} (i : ι) : Exec sc s tr s1 → Step sc s1 i ev s2 → Exec sc s (tr ++ ev) s2

/-- all threads at the beginning of their programs -/
def init (m0 : V → T) (progs : ι → List (Op V T)) : State ι V T :=
  { cur := m0, past := fun _ => [], mutex := none, thr := fun i => ⟨progs i, .idle⟩ }

end

/-! ## the operations -/

/-- `lhs op= val`, atomics-macro-class.h:83-93: updates and returns the new value -/
def binary {T : Type} (g : T → T) : T → T × T := fun v => (g v, g v)

/-- `++lhs`, `--lhs`, atomics-macro-class-prepost.h:83-99 -/
def preOp {T : Type} (g : T → T) : T → T × T := fun v => (g v, g v)

/-- `lhs++`, `lhs--`, the same lines: returns the old value -/
def postOp {T : Type} (g : T → T) : T → T × T := fun v => (g v, v)

/-- `mineq`, atomics.h:1001-1005 (both operands of one type) -/
def mineq {T : Type} [LinearOrder T] (a b : T) : T := if b < a then b else a

/-- `maxeq`, atomics.h:1010-1014 -/
def maxeq {T : Type} [LinearOrder T] (a b : T) : T := if a < b then b else a

/-- the punned loops, atomics.h:620-681 and 823-884, run on the integer `P` that has the same bits:
`neu.pun = old.pun; ret = operation(neu.tee);` -/
def punOp {V T P : Type} (enc : T → P) (dec : P → T) (op : Op V T) : Op V P :=
  ⟨op.scheme, op.var, fun p => (enc (op.f (dec p)).1, enc (op.f (dec p)).2)⟩

/-- conversion of a floating value to an integer: toward zero -/
def toInt (q : ℚ) : Int := if 0 ≤ q then ⌊q⌋ else ⌈q⌉

/-- `lhs += val` for an integer `lhs` and a floating `val`, atomics-macro-class.h:92: added
in floating point, then converted -/
def addMixed (val : ℚ) (lhs : Int) : Int := toInt (lhs + val)

/-- `atom.fetch_add(val,sync)`, atomics-macro-class.h:37: the argument is converted to the type of the atomic -/
def fetchAddMixed (val : ℚ) (lhs : Int) : Int := lhs + toInt val

end Verif.Atomics
