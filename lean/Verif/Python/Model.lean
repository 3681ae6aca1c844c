import Mathlib.Logic.Function.Basic

/-!
# Model of `ristra/embedded/embed_python.h`

The Python interpreter is a heap of reference-counted objects.  Modelled of each object is its
content and the number of references *the program* holds (those held inside the interpreter keep
it alive besides).  Objects are numbered.  What the interpreter answers is given by `Ext`: every theorem is for all
answers.  Printing an error is left out, clearing it is not.  `python_initialize`, the program
name and `python_finalize` are not modelled.  `python_run_string` ignores what it returns.
-/

namespace Verif.Python

/-- text -/
abbrev Str := List Char


/-- content of an object: a number, text, a tuple (`none`: element not yet set), anything else.
Floating-point numbers are represented by their rational value. -/
inductive Val where
  | long (n : Int)
  | double (num : Int) (den : Nat)
  | str (s : Str)
  | tuple (elems : List (Option Nat))
  | other
deriving DecidableEq

/-- the answers of the interpreter -/
structure Ext where
  /-- does the k-th object get memory -/
  alloc : Nat → Bool
  /-- can the text be decoded -/
  decodes : Str → Bool
  module : Str → Option Nat
  attr : Nat → Str → Option Nat
  callable : Nat → Bool
  /-- what a function returns for the contents of its arguments; `none`: it raises -/
  call : Nat → List Val → Option Val
  /-- `sys.path`, and whether it can be changed and set again -/
  syspath : Option Nat
  insertOk : Bool
  setOk : Bool

/-- the interpreter and the references the program holds -/
structure Py where
  /-- references held by the program -/
  owned : Nat → Nat
  content : Nat → Val
  next : Nat
  /-- the error indicator of the interpreter -/
  pending : Bool
  /-- entries put in front of `sys.path`, first entry first -/
  path : List Str

/-- result of a call: a value, an exception (`THROW_RUNTIME_ERROR`), or undefined behaviour; in
the first two cases with the state then -/
inductive Res (α : Type) where
  | ret (a : α) (s : Py)
  | thrown (s : Py)
  | ub

/-- a computation on that state -/
abbrev M (α : Type) := Py → Res α

/-- one call after the other -/
def M.bind {α β : Type} (x : M α) (f : α → M β) : M β := fun s =>
  match x s with
  | .ret a s => f a s
  | .thrown s => .thrown s
  | .ub => .ub

/-- a value -/
def ret {α : Type} (a : α) : M α := fun s => .ret a s
/-- `THROW_RUNTIME_ERROR`, assertions/errors.h:35-40 -/
def throwRuntime {α : Type} : M α := fun s => .thrown s
/-- undefined behaviour -/
def undefined {α : Type} : M α := fun _ => .ub

/-! ## The interpreter -/

/-- a new object, with one reference held by the program -/
def Py.new (s : Py) (v : Val) : Nat × Py :=
  (s.next, { s with
    owned := Function.update s.owned s.next (s.owned s.next + 1)
    content := Function.update s.content s.next v
    next := s.next + 1 })

/-- one more reference to an object that exists -/
def Py.incref (s : Py) (o : Nat) : Py := { s with owned := Function.update s.owned o (s.owned o + 1) }

/-- a function returning a new object, or a null pointer with the error indicator set -/
def newObject (ok : Bool) (v : Val) : M (Option Nat) := fun s =>
  if ok then .ret (some (s.new v).1) (s.new v).2 else .ret none { s with pending := true }

/-- a function returning a new reference to an object of the interpreter, or null with an error -/
def newRef (o : Option Nat) : M (Option Nat) := fun s =>
  match o with
  | some o => .ret (some o) (s.incref o)
  | none => .ret none { s with pending := true }

/-- `Py_DECREF`; releasing a reference that the program does not hold is undefined -/
def decref (o : Nat) : M Unit := fun s =>
  if s.owned o = 0 then .ub else .ret () { s with owned := Function.update s.owned o (s.owned o - 1) }

/-! ## embed_python.h -/

/-- `python_free`, embed_python.h:63-66 -/
def pythonFree (o : Nat) : M Unit := decref o

/-- `python_check`, embed_python.h:68-71: `PyErr_Print` clears the indicator -/
def pythonCheck : M Unit := fun s => .ret () { s with pending := false }

/-- the pattern `if (!p) { python_check(); THROW_RUNTIME_ERROR(...); }`; embed_python.h:92-95, 115-118 and so on -/
def orThrow {α : Type} (p : Option α) : M α :=
  match p with
  | some o => ret o
  | none => pythonCheck.bind fun _ => throwRuntime

/-- `python_import`, embed_python.h:108-126 -/
def pythonImport (E : Ext) (name : Str) : M Nat :=
  (newObject (E.decodes name) (.str name)).bind fun p => (orThrow p).bind fun pname =>
  (newRef (E.module name)).bind fun q => (orThrow q).bind fun pmodule =>
  (decref pname).bind fun _ => ret pmodule

/-- `PySys_GetObject("path")`: a borrowed reference, or null without an error; called at embed_python.h:130 -/
def sysPath (E : Ext) : M (Option Nat) := ret E.syspath

/-- `PyList_Insert(syspath, 0, pname)`, which takes a reference of its own; called at embed_python.h:144 -/
def listInsert (E : Ext) (path : Str) : M (Option Unit) := fun s =>
  if E.insertOk then .ret (some ()) { s with path := path :: s.path } else .ret none { s with pending := true }

/-- `PySys_SetObject("path", syspath)`; called at embed_python.h:148 -/
def setPath (E : Ext) : M (Option Unit) := fun s =>
  if E.setOk then .ret (some ()) s else .ret none { s with pending := true }

/-- `python_add_to_path`, embed_python.h:128-154 -/
def pythonAddToPath (E : Ext) (path : Str) : M Nat :=
  (sysPath E).bind fun p => (orThrow p).bind fun syspath =>
  (newObject (E.decodes path) (.str path)).bind fun q => (orThrow q).bind fun pname =>
  (listInsert E path).bind fun r => (orThrow r).bind fun _ =>
  (setPath E).bind fun r => (orThrow r).bind fun _ =>
  (decref pname).bind fun _ => ret syspath

/-- `python_get_attribute`, embed_python.h:156-164 -/
def pythonGetAttribute (E : Ext) (o : Nat) (name : Str) : M Nat :=
  (newRef (E.attr o name)).bind orThrow

/-- `python_as_long`, embed_python.h:166-169 -/
def pythonAsLong (o : Nat) : M Int := fun s =>
  match s.content o with
  | .long n => .ret n s
  | _ => .ret (-1) { s with pending := true }

/-- `python_as_double`, embed_python.h:171-174 (the value as a fraction) -/
def pythonAsDouble (o : Nat) : M (Int × Nat) := fun s =>
  match s.content o with
  | .long n => .ret (n, 1) s
  | .double p q => .ret (p, q) s
  | _ => .ret (-1, 1) { s with pending := true }

/-- the numbers that can be passed -/
inductive Arg where
  | long (n : Int)
  | double (num : Int) (den : Nat)
deriving DecidableEq

/-- the object made of an argument -/
def Arg.val : Arg → Val
  | .long n => .long n
  | .double p q => .double p q

/-- `python_get_value`, embed_python.h:176-199 -/
def pythonGetValue (E : Ext) (a : Arg) : M Nat := fun s =>
  ((newObject (E.alloc s.next) a.val).bind orThrow) s

/-- `python_get_tuple_element`, embed_python.h:201-214: `PyTuple_GetItem` returns a borrowed reference -/
def pythonGetTupleElement (tup : Nat) (i : Nat) : M Nat := fun s =>
  match s.content tup with
  | .tuple es =>
    if es.length ≤ i then (pythonCheck.bind fun _ => throwRuntime) s
    else match es[i]? with
      | some (some o) => .ret o s
      | _ => (pythonCheck.bind fun _ => throwRuntime) s
  | _ => .ub

/-- `python_set_tuple_element`, embed_python.h:217-232: `PyTuple_SetItem` takes over the reference -/
def pythonSetTupleElement (E : Ext) (tup : Nat) (i : Nat) (a : Arg) : M Unit := fun s =>
  match s.content tup with
  | .tuple es =>
    if es.length ≤ i then (pythonCheck.bind fun _ => throwRuntime) s
    else ((pythonGetValue E a).bind fun o s => .ret () { s with
      owned := Function.update s.owned o (s.owned o - 1)
      content := Function.update s.content tup (.tuple (es.set i (some o))) }) s
  | _ => .ub

/-- `detail::python_build_args`, embed_python.h:237-252 -/
def buildArgsFrom (E : Ext) (tup : Nat) : Nat → List Arg → M Unit
  | _, [] => ret ()
  | i, a :: as => (pythonSetTupleElement E tup i a).bind fun _ => buildArgsFrom E tup (i + 1) as

/-- `python_build_args`, embed_python.h:256-266.  (A call without arguments does not compile.) -/
def pythonBuildArgs (E : Ext) (args : List Arg) : M Nat := fun s =>
  ((newObject (E.alloc s.next) (.tuple (List.replicate args.length none))).bind fun p => (orThrow p).bind fun pargs =>
    (buildArgsFrom E pargs 0 args).bind fun _ => ret pargs) s

/-- the contents of the elements of a tuple -/
def Py.contents (s : Py) (tup : Nat) : List Val :=
  match s.content tup with
  | .tuple es => es.filterMap fun o => o.map s.content
  | _ => []

/-- `PyObject_CallObject`; called at embed_python.h:280 -/
def callObject (E : Ext) (f args : Nat) : M (Option Nat) := fun s =>
  match E.call f (s.contents args) with
  | some v => newObject true v s
  | none => .ret none { s with pending := true }

/-- `python_call_function`, embed_python.h:268-287 -/
def pythonCallFunction (E : Ext) (f : Nat) (args : List Arg) : M Nat :=
  if E.callable f then
    (pythonBuildArgs E args).bind fun pargs => (callObject E f pargs).bind fun r => (orThrow r).bind fun pval =>
    (decref pargs).bind fun _ => ret pval
  else pythonCheck.bind fun _ => throwRuntime

end Verif.Python
