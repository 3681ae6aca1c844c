import Verif.Python.Model
import Mathlib.Tactic.Basic

/-!
# C83: calling Python
-/

namespace Verif.Python

/-! ## Errors are cleared -/

/-- whenever `x` throws, the error indicator of the interpreter is clear -/
def Clears {α : Type} (x : M α) : Prop := ∀ s s', x s = .thrown s' → s'.pending = false

/-- `x` does not throw -/
def Quiet {α : Type} (x : M α) : Prop := ∀ s s', x s ≠ .thrown s'

theorem Quiet.clears {α : Type} {x : M α} (h : Quiet x) : Clears x := fun s s' e => absurd e (h s s')

theorem Clears.bind {α β : Type} {x : M α} {f : α → M β} (hx : Clears x) (hf : ∀ a, Clears (f a)) : Clears (x.bind f) := by
  intro s s' e
  unfold M.bind at e
  cases h : x s with
  | ret a s1 => rw [h] at e; exact hf a s1 s' e
  | thrown s1 => rw [h] at e; cases e; exact hx s _ h
  | ub => rw [h] at e; cases e

theorem quiet_newObject (ok : Bool) (v : Val) : Quiet (newObject ok v) := by
  intro s s' e; unfold newObject at e; split at e <;> cases e
theorem quiet_newRef (o : Option Nat) : Quiet (newRef o) := by
  intro s s' e; unfold newRef at e; split at e <;> cases e
theorem quiet_decref (o : Nat) : Quiet (decref o) := by
  intro s s' e; unfold decref at e; split at e <;> cases e
theorem quiet_ret {α : Type} (a : α) : Quiet (ret a) := by intro s s' e; cases e
theorem clears_check_throw {α : Type} : Clears (pythonCheck.bind fun _ => (throwRuntime : M α)) := by
  intro s s' e; unfold M.bind pythonCheck throwRuntime at e; cases e; rfl
theorem clears_orThrow {α : Type} (p : Option α) : Clears (orThrow p) := by
  unfold orThrow
  split
  · exact (quiet_ret _).clears
  · exact clears_check_throw

theorem clears_getValue (E : Ext) (a : Arg) : Clears (pythonGetValue E a) := by
  intro s s' e
  exact ((quiet_newObject _ _).clears.bind fun p => clears_orThrow p) s s' e

theorem clears_setTuple (E : Ext) (tup : Nat) (i : Nat) (a : Arg) : Clears (pythonSetTupleElement E tup i a) := by
  intro s s' e
  unfold pythonSetTupleElement at e
  split at e
  · split at e
    · exact clears_check_throw s s' e
    · refine Clears.bind (clears_getValue E a) ?_ s s' e
      intro o s s' e; cases e
  · cases e

theorem clears_buildArgsFrom (E : Ext) (tup : Nat) (as : List Arg) : ∀ i, Clears (buildArgsFrom E tup i as) := by
  induction as with
  | nil => intro i; exact (quiet_ret _).clears
  | cons a as ih => intro i; exact (clears_setTuple E tup i a).bind fun _ => ih (i + 1)

theorem clears_buildArgs (E : Ext) (as : List Arg) : Clears (pythonBuildArgs E as) := by
  intro s s' e
  exact ((quiet_newObject _ _).clears.bind fun p => (clears_orThrow p).bind fun o =>
    (clears_buildArgsFrom E o as 0).bind fun _ => (quiet_ret _).clears) s s' e

/-- **C83** Whatever the interpreter answers, an exception thrown by importing, extending the
path, looking up an attribute, a tuple element or calling a function leaves no Python error
pending: the next call starts clean. -/
theorem C83_errors_cleared (E : Ext) (s s' : Py) :
    (∀ name, pythonImport E name s = .thrown s' → s'.pending = false) ∧
    (∀ path, pythonAddToPath E path s = .thrown s' → s'.pending = false) ∧
    (∀ o a, pythonGetAttribute E o a s = .thrown s' → s'.pending = false) ∧
    (∀ t i, pythonGetTupleElement t i s = .thrown s' → s'.pending = false) ∧
    (∀ t i a, pythonSetTupleElement E t i a s = .thrown s' → s'.pending = false) ∧
    (∀ f args, pythonCallFunction E f args s = .thrown s' → s'.pending = false) := by
  refine ⟨?_, ?_, ?_, ?_, ?_, ?_⟩
  · intro name
    exact ((quiet_newObject _ _).clears.bind fun p => (clears_orThrow p).bind fun _ =>
      (quiet_newRef _).clears.bind fun q => (clears_orThrow q).bind fun _ =>
      (quiet_decref _).clears.bind fun _ => (quiet_ret _).clears) s s'
  · intro path
    have q1 : Quiet (listInsert E path) := by intro s s' e; unfold listInsert at e; split at e <;> cases e
    have q2 : Quiet (setPath E) := by intro s s' e; unfold setPath at e; split at e <;> cases e
    exact (Clears.bind (quiet_ret E.syspath).clears fun p => (clears_orThrow p).bind fun _ =>
      (quiet_newObject _ _).clears.bind fun q => (clears_orThrow q).bind fun _ => q1.clears.bind fun r =>
      (clears_orThrow r).bind fun _ => q2.clears.bind fun r => (clears_orThrow r).bind fun _ =>
      (quiet_decref _).clears.bind fun _ => (quiet_ret _).clears) s s'
  · intro o a
    exact ((quiet_newRef _).clears.bind fun p => clears_orThrow p) s s'
  · intro t i e
    unfold pythonGetTupleElement at e
    split at e
    · split at e
      · exact clears_check_throw s s' e
      · split at e
        · cases e
        · exact clears_check_throw s s' e
    · cases e
  · intro t i a
    exact clears_setTuple E t i a s s'
  · intro f args e
    unfold pythonCallFunction at e
    split at e
    · refine ((clears_buildArgs E args).bind fun o => Clears.bind ?_ fun r => (clears_orThrow r).bind fun _ =>
        (quiet_decref _).clears.bind fun _ => (quiet_ret _).clears) s s' e
      intro s s' e
      unfold callObject at e
      split at e
      · exact absurd e (quiet_newObject _ _ _ _)
      · cases e
    · exact clears_check_throw s s' e

/-- **C83 fails** for the conversions: asked for the number in an object that is not a number they
return -1 like for the number -1, and leave the error pending. -/
theorem C83_conversion_fails (s : Py) (o : Nat) (t : Str) (h : s.content o = .str t) :
    pythonAsLong o s = .ret (-1) { s with pending := true } ∧
    pythonAsDouble o s = .ret (-1, 1) { s with pending := true } := by
  simp [pythonAsLong, pythonAsDouble, h]

example : pythonAsLong 1 ⟨fun _ => 0, fun _ => .str "x".toList, 3, false, []⟩ =
    .ret (-1) ⟨fun _ => 0, fun _ => .str "x".toList, 3, true, []⟩ :=
  (C83_conversion_fails _ 1 "x".toList rfl).1

/-! ## References -/

/-- one more reference to `o` -/
def plus (owned : Nat → Nat) (o : Nat) : Nat → Nat := fun x => if x = o then owned x + 1 else owned x

theorem plus_eq (owned : Nat → Nat) (o : Nat) : Function.update owned o (owned o + 1) = plus owned o := by
  funext x
  by_cases h : x = o
  · subst h; simp [plus]
  · simp [plus, h]

theorem minus_plus (owned : Nat → Nat) (a b : Nat) :
    Function.update (plus (plus owned a) b) a (plus (plus owned a) b a - 1) = plus owned b := by
  funext x
  by_cases h : x = a
  · subst h
    by_cases h2 : x = b
    · subst h2; simp [plus]
    · simp [plus, h2]
  · rw [Function.update_of_ne h]
    simp [plus, h]

/-- the result is `m`, in a state with `P` -/
def Res.is {α : Type} (x : Res α) (m : α) (P : Py → Prop) : Prop :=
  match x with
  | .ret a s => a = m ∧ P s
  | _ => False

/-- the result is an exception, in a state with `P` -/
def Res.fails {α : Type} (x : Res α) (P : Py → Prop) : Prop :=
  match x with
  | .thrown s => P s
  | _ => False

theorem ex_ret {α : Type} {x : Res α} {m : α} {P : Py → Prop} (h : x.is m P) : ∃ s', x = .ret m s' ∧ P s' := by
  cases x with
  | ret a s => obtain ⟨rfl, h⟩ := h; exact ⟨s, rfl, h⟩
  | _ => exact h.elim

theorem ex_thrown {α : Type} {x : Res α} {P : Py → Prop} (h : x.fails P) : ∃ s', x = .thrown s' ∧ P s' := by
  cases x with
  | thrown s => exact ⟨s, rfl, h⟩
  | _ => exact h.elim

/-- **C83** Importing a module and looking up an attribute hand the caller exactly one
reference, to the object asked for, and keep none. -/
theorem C83_import_attribute (E : Ext) (s : Py) :
    (∀ name m, E.decodes name = true → E.module name = some m →
      ∃ s', pythonImport E name s = .ret m s' ∧ s'.owned = plus s.owned m ∧ s'.pending = s.pending) ∧
    (∀ o a r, E.attr o a = some r →
      ∃ s', pythonGetAttribute E o a s = .ret r s' ∧ s'.owned = plus s.owned r ∧ s'.pending = s.pending) ∧
    (∀ o a, E.attr o a = none →
      ∃ s', pythonGetAttribute E o a s = .thrown s' ∧ s'.owned = s.owned) := by
  refine ⟨?_, ?_, ?_⟩
  · intro name m hd hm
    apply ex_ret
    unfold pythonImport
    simp only [M.bind, newObject, hd, if_true, orThrow, ret, newRef, hm, decref, Py.new, Py.incref]
    rw [if_neg]
    · exact ⟨rfl, by simp only [plus_eq, minus_plus], rfl⟩
    · rw [plus_eq, plus_eq]
      simp only [plus]
      split <;> simp
  · intro o a r h
    apply ex_ret
    simp only [pythonGetAttribute, M.bind, newRef, h, orThrow, ret]
    exact ⟨rfl, plus_eq _ _, rfl⟩
  · intro o a h
    apply ex_thrown
    simp only [pythonGetAttribute, M.bind, newRef, h, orThrow, pythonCheck, throwRuntime]
    rfl

/-- **C83 fails** for a module that cannot be imported: the object made for its name is never
released. -/
theorem C83_import_leak_fails (E : Ext) (s : Py) (name : Str) (hd : E.decodes name = true) (hm : E.module name = none) :
    ∃ s', pythonImport E name s = .thrown s' ∧ s'.owned = plus s.owned s.next := by
  apply ex_thrown
  unfold pythonImport
  simp only [M.bind, newObject, hd, if_true, orThrow, ret, newRef, hm, pythonCheck, throwRuntime, Py.new]
  exact plus_eq _ _

/-- **C83** `python_add_to_path` puts the directory in front and keeps no reference; what it
returns is not a reference of the caller. -/
theorem C83_add_to_path (E : Ext) (s : Py) (path : Str) (l : Nat) (h1 : E.syspath = some l)
    (h2 : E.decodes path = true) (h3 : E.insertOk = true) (h4 : E.setOk = true) :
    ∃ s', pythonAddToPath E path s = .ret l s' ∧ s'.owned = s.owned ∧ s'.path = path :: s.path := by
  apply ex_ret
  unfold pythonAddToPath
  simp only [M.bind, sysPath, listInsert, setPath, newObject, h1, h2, h3, h4, if_true, orThrow, ret, decref, Py.new]
  rw [if_neg (by simp)]
  refine ⟨rfl, ?_, rfl⟩
  funext x
  dsimp only
  by_cases h : x = s.next
  · subst h; simp
  · simp [h]

/-! ## Calls -/

/-- what building the arguments from the i-th on does -/
theorem buildArgsFrom_ok (E : Ext) (tup : Nat) (as : List Arg) (i : Nat) (s : Py) (es : List (Option Nat))
    (ht : s.content tup = .tuple es) (hi : i + as.length = es.length) (hlt : tup < s.next)
    (ha : ∀ j, j < as.length → E.alloc (s.next + j) = true) :
    ∃ s', buildArgsFrom E tup i as s = .ret () s' ∧ s'.owned = s.owned ∧ s'.pending = s.pending ∧
      s'.next = s.next + as.length ∧ s'.path = s.path ∧
      s'.content tup = .tuple (es.take i ++ (List.range as.length).map fun j => some (s.next + j)) ∧
      (∀ j (hj : j < as.length), s'.content (s.next + j) = as[j].val) ∧
      ∀ o, o < s.next → o ≠ tup → s'.content o = s.content o := by
  induction as generalizing i s es with
  | nil =>
    refine ⟨s, rfl, rfl, rfl, rfl, rfl, ?_, by simp, fun _ _ _ => rfl⟩
    rw [ht]
    simp only [List.length_nil, Nat.add_zero] at hi
    simp [hi]
  | cons a as ih =>
    simp only [List.length_cons] at hi ha
    have h0 : E.alloc s.next = true := by simpa using ha 0 (by omega)
    have htn : tup ≠ s.next := by omega
    -- the state after the i-th argument
    have hset : pythonSetTupleElement E tup i a s = .ret () { s with
        content := Function.update (Function.update s.content s.next a.val) tup (.tuple (es.set i (some s.next)))
        next := s.next + 1 } := by
      unfold pythonSetTupleElement
      rw [ht]
      dsimp only
      rw [if_neg (by omega)]
      simp only [M.bind, pythonGetValue, newObject, h0, if_true, orThrow, ret, Py.new]
      congr 2
      funext x
      by_cases h : x = s.next
      · subst h; simp
      · simp [h]
    generalize hs1 : ({ s with
        content := Function.update (Function.update s.content s.next a.val) tup (.tuple (es.set i (some s.next)))
        next := s.next + 1 } : Py) = s1 at hset
    have c1 : s1.content tup = .tuple (es.set i (some s.next)) := by rw [← hs1]; simp
    have n1 : s1.next = s.next + 1 := by rw [← hs1]
    obtain ⟨s', e, g1, g2, g3, g4, g5, g6, g7⟩ := ih (i + 1) s1 (es.set i (some s.next)) c1
      (by rw [List.length_set]; omega) (by rw [n1]; omega)
      (fun j hj => by rw [n1]; have := ha (j + 1) (by omega); rwa [Nat.add_assoc, Nat.add_comm 1 j])
    refine ⟨s', ?_, ?_, ?_, ?_, ?_, ?_, ?_, ?_⟩
    · rw [buildArgsFrom, M.bind, hset]
      exact e
    · rw [g1, ← hs1]
    · rw [g2, ← hs1]
    · rw [g3, n1, List.length_cons]; omega
    · rw [g4, ← hs1]
    · rw [g5, n1]
      congr 1
      have ht1 : (es.set i (some s.next)).take (i + 1) = es.take i ++ [some s.next] := by
        rw [List.take_add_one, List.take_set_of_le (by omega), List.getElem?_set_self (by omega)]
        rfl
      rw [ht1, List.append_assoc, List.length_cons, List.range_succ_eq_map, List.map_cons, List.map_map]
      congr 1
      simp only [List.singleton_append, Nat.add_zero, List.cons.injEq, true_and]
      apply List.map_congr_left
      intro j _
      simp only [Function.comp, Option.some.injEq]
      omega
    · intro j hj
      cases j with
      | zero =>
        rw [Nat.add_zero, g7 s.next (by omega) (Ne.symm htn), ← hs1]
        simp [Ne.symm htn]
      | succ j =>
        have := g6 j (by simpa using hj)
        rw [n1] at this
        rw [show s.next + (j + 1) = s.next + 1 + j by omega, this]
        simp
    · intro o ho hot
      rw [g7 o (by omega) hot, ← hs1]
      simp only
      rw [Function.update_of_ne hot, Function.update_of_ne (by omega)]

/-- **C83** A call of a Python function that returns: the function was called with exactly the
numbers given, in order; the caller gets one reference, to what it returned, and every other
count is as before the call. -/
theorem C83_call_returns (E : Ext) (f : Nat) (args : List Arg) (v : Val) (s : Py)
    (hc : E.callable f = true) (ha : ∀ o, E.alloc o = true) (hv : E.call f (args.map Arg.val) = some v) :
    ∃ r s', pythonCallFunction E f args s = .ret r s' ∧ s'.content r = v ∧ s'.owned = plus s.owned r ∧
      s'.pending = s.pending ∧ (∀ o, o < s.next → s'.content o = s.content o) := by
  -- after the tuple was made
  generalize hs1 : ({ s with
      owned := Function.update s.owned s.next (s.owned s.next + 1)
      content := Function.update s.content s.next (.tuple (List.replicate args.length none))
      next := s.next + 1 } : Py) = s1
  have n1 : s1.next = s.next + 1 := by rw [← hs1]
  obtain ⟨s2, e, g1, g2, g3, g4, g5, g6, g7⟩ := buildArgsFrom_ok E s.next args 0 s1 (List.replicate args.length none)
    (by rw [← hs1]; simp) (by simp) (by omega) (fun j _ => ha _)
  have hb : pythonBuildArgs E args s = .ret s.next s2 := by
    unfold pythonBuildArgs
    simp only [M.bind, newObject, ha, if_true, orThrow, ret, Py.new, hs1, e]
  have hcont : s2.contents s.next = args.map Arg.val := by
    unfold Py.contents
    rw [g5]
    simp only [List.take_zero, List.nil_append, List.filterMap_map]
    have : (List.range args.length).filterMap ((fun o => Option.map s2.content o) ∘ fun j => some (s1.next + j)) =
        (List.range args.length).map fun j => s2.content (s1.next + j) := by
      rw [← List.filterMap_eq_map]
      rfl
    rw [this]
    apply List.ext_getElem
    · simp
    · intro j h1 h2
      simp at h2
      simp only [List.getElem_map, List.getElem_range]
      exact g6 j h2
  refine ⟨s2.next, ?_⟩
  apply ex_ret
  unfold pythonCallFunction
  rw [if_pos hc]
  simp only [M.bind, hb, callObject, hcont, hv, newObject, if_true, orThrow, ret, decref, Py.new]
  rw [if_neg]
  · refine ⟨rfl, ?_, ?_, ?_, ?_⟩
    · simp
    · dsimp only
      rw [plus_eq, g1, ← hs1]
      simp only
      rw [plus_eq, minus_plus]
    · dsimp only
      rw [g2, ← hs1]
    · intro o ho
      dsimp only
      rw [Function.update_of_ne (by omega), g7 o (by omega) (by omega), ← hs1]
      simp only
      rw [Function.update_of_ne (by omega)]
  · rw [plus_eq, g1, ← hs1]
    simp only
    rw [plus_eq]
    simp only [plus]
    split <;> simp

/-- **C83 fails** for a function that raises: the tuple of arguments is never released. -/
theorem C83_call_leak_fails (E : Ext) (f : Nat) (args : List Arg) (s : Py)
    (hc : E.callable f = true) (ha : ∀ o, E.alloc o = true) (hv : E.call f (args.map Arg.val) = none) :
    ∃ s', pythonCallFunction E f args s = .thrown s' ∧ s'.owned = plus s.owned s.next := by
  generalize hs1 : ({ s with
      owned := Function.update s.owned s.next (s.owned s.next + 1)
      content := Function.update s.content s.next (.tuple (List.replicate args.length none))
      next := s.next + 1 } : Py) = s1
  have n1 : s1.next = s.next + 1 := by rw [← hs1]
  obtain ⟨s2, e, g1, g2, g3, g4, g5, g6, g7⟩ := buildArgsFrom_ok E s.next args 0 s1 (List.replicate args.length none)
    (by rw [← hs1]; simp) (by simp) (by omega) (fun j _ => ha _)
  have hb : pythonBuildArgs E args s = .ret s.next s2 := by
    unfold pythonBuildArgs
    simp only [M.bind, newObject, ha, if_true, orThrow, ret, Py.new, hs1, e]
  have hcont : s2.contents s.next = args.map Arg.val := by
    unfold Py.contents
    rw [g5]
    simp only [List.take_zero, List.nil_append, List.filterMap_map]
    have : (List.range args.length).filterMap ((fun o => Option.map s2.content o) ∘ fun j => some (s1.next + j)) =
        (List.range args.length).map fun j => s2.content (s1.next + j) := by
      rw [← List.filterMap_eq_map]
      rfl
    rw [this]
    apply List.ext_getElem
    · simp
    · intro j h1 h2
      simp at h2
      simp only [List.getElem_map, List.getElem_range]
      exact g6 j h2
  apply ex_thrown
  unfold pythonCallFunction
  rw [if_pos hc]
  simp only [M.bind, hb, callObject, hcont, hv, orThrow, pythonCheck, throwRuntime]
  show s2.owned = _
  rw [g1, ← hs1]
  simp only
  rw [plus_eq]

/-- **C83** The elements of a tuple are found where they are; outside of it is an exception. -/
theorem C83_tuple_element (s : Py) (t : Nat) (es : List (Option Nat)) (h : s.content t = .tuple es) (i : Nat) :
    (∀ o, es[i]? = some (some o) → pythonGetTupleElement t i s = .ret o s) ∧
    (es.length ≤ i → ∃ s', pythonGetTupleElement t i s = .thrown s' ∧ s'.owned = s.owned) := by
  constructor
  · intro o ho
    have : i < es.length := (List.getElem?_eq_some_iff.1 ho).1
    simp only [pythonGetTupleElement, h, ho]
    rw [if_neg (by omega)]
  · intro hi
    simp only [pythonGetTupleElement, h]
    rw [if_pos hi]
    exact ⟨_, rfl, rfl⟩

example : pythonGetTupleElement 5 1 ⟨fun _ => 0, fun _ => .tuple [some 1, some 2], 6, false, []⟩ =
    .ret 2 ⟨fun _ => 0, fun _ => .tuple [some 1, some 2], 6, false, []⟩ :=
  (C83_tuple_element ⟨fun _ => 0, fun _ => .tuple [some 1, some 2], 6, false, []⟩ 5 _ rfl 1).1 2 rfl

/-- **C83 fails** for what `python_get_tuple_element` and `python_add_to_path` return: unlike
the results of the other functions it is not a reference of the caller, and releasing it with
`python_free` releases a reference of somebody else. -/
theorem C83_borrowed_fails (E : Ext) (s : Py) (t o l : Nat) (path : Str)
    (h : s.content t = .tuple [some o]) (ho : s.owned o = 0) (hl : s.owned l = 0)
    (h1 : E.syspath = some l) (h2 : E.decodes path = true) (h3 : E.insertOk = true) (h4 : E.setOk = true) :
    ((pythonGetTupleElement t 0).bind pythonFree) s = .ub ∧
    ((pythonAddToPath E path).bind pythonFree) s = .ub := by
  constructor
  · rw [M.bind, (C83_tuple_element s t [some o] h 0).1 o rfl]
    simp [pythonFree, decref, ho]
  · obtain ⟨s', e, hs', _⟩ := C83_add_to_path E s path l h1 h2 h3 h4
    rw [M.bind, e]
    simp [pythonFree, decref, hs', hl]

/-- an interpreter with one function, of two arguments, that raises for anything else -/
def sample : Ext where
  alloc := fun _ => true
  decodes := fun _ => true
  module := fun n => if n = "m".toList then some 1 else none
  attr := fun _ _ => some 2
  callable := fun o => o == 2
  call := fun _ as => match as with
    | [.long a, .long b] => some (.long (a + b))
    | _ => none
  syspath := some 0
  insertOk := true
  setOk := true

/-- three objects and nothing held -/
def start : Py := ⟨fun _ => 0, fun _ => .other, 3, false, []⟩

example : ∃ r s', pythonCallFunction sample 2 [.long 3, .long 4] start = .ret r s' ∧ s'.content r = .long 7 := by
  obtain ⟨r, s', e, hc, _⟩ := C83_call_returns sample 2 [.long 3, .long 4] (.long 7) start rfl (fun _ => rfl) rfl
  exact ⟨r, s', e, hc⟩

example : ∃ s', pythonCallFunction sample 2 [.long 3] start = .thrown s' :=
  ⟨_, (C83_call_leak_fails sample 2 [.long 3] start rfl (fun _ => rfl) rfl).choose_spec.1⟩

/-- `C83_add_to_path` -/
example : ∃ s', pythonAddToPath sample "d".toList start = .ret 0 s' ∧ s'.path = ["d".toList] := by
  obtain ⟨s', h, -, h'⟩ := C83_add_to_path sample start "d".toList 0 rfl rfl rfl rfl
  exact ⟨s', h, h'⟩

/-- `C83_borrowed_fails` -/
example : ((pythonAddToPath sample "d".toList).bind pythonFree) ⟨fun _ => 0, fun _ => .tuple [some 1], 6, false, []⟩ = .ub :=
  (C83_borrowed_fails sample ⟨fun _ => 0, fun _ => .tuple [some 1], 6, false, []⟩ 5 1 0 "d".toList rfl rfl rfl rfl rfl rfl rfl).2

example : ∃ s', pythonImport sample "x".toList start = .thrown s' ∧ s'.owned = plus start.owned 3 :=
  C83_import_leak_fails sample start "x".toList rfl rfl

end Verif.Python
