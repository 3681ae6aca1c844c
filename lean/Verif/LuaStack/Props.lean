import Verif.LuaStack.Ops
import Verif.LuaStack.Demo

/-! # C55: the Lua stack stays balanced -/

namespace Verif.LuaStack

variable {F : Type}

/-! ## single operations -/

/-- C55: a conversion that returns has removed exactly the value it converted, whatever is below
it, and changed nothing else -/
theorem C55_get (L : Lua F) (t : Ty) (s s' : St F) (v : Val F) (rest : List (Val F)) (c : CVal F)
    (h : s.stack = v :: rest) (hr : get L t (-1) s = .ok c s') : s' = { s with stack := rest } := by
  have := get_post L t s v rest
  rw [← h, St.on_self, hr] at this
  exact this

/-- a table of two numbers above a string -/
example : ∃ s', get exLua (.vec .float) (-1) { exSt with stack := [.table 0, .str [65]] } = .ok (.list [.num 3, .num 4]) s' ∧
    s'.stack = [.str [65]] := by
  have h : get exLua (.vec .float) (-1) { exSt with stack := [.table 0, .str [65]] }
      = .ok (.list [.num 3, .num 4]) { exSt with stack := [.str [65]] } := rfl
  exact ⟨_, h, by rw [C55_get exLua _ _ _ _ _ _ rfl h]⟩

/-- C55: every conversion, call and global access that returns leaves the stack as it was -/
theorem C55_returns (L : Lua F) (s s' : St F) :
    (∀ r t c, convert L r t s = .ok c s' → s'.stack = s.stack) ∧
    (∀ r ts cs, convertTuple L r ts s = .ok cs s' → s'.stack = s.stack) ∧
    (∀ r args res, callResult L r args s = .ok res s' → s'.stack = s.stack) ∧
    (∀ key res, global key s = .ok res s' → s'.stack = s.stack) := by
  refine ⟨fun r t c h => ?_, fun r ts cs h => ?_, fun r args res h => ?_, fun key res h => ?_⟩
  · have := convert_post L r t (s := s) rfl; rw [h] at this; exact this.1
  · have := convertTuple_post L r ts (s := s) rfl; rw [h] at this; exact this.1
  · have := callResult_post L r args (s := s) rfl; rw [h] at this; exact this.1
  · have := global_post key (s := s) rfl; rw [h] at this; exact this.1

/-- C55 as stated for field access: violated.  Access by key or index empties the whole stack
(`lua_pop(s,-1)`), so whatever was on it is lost -/
theorem C55_field_fails (L : Lua F) (s s' : St F) (hs : s.stack ≠ []) :
    (∀ r key res, field L r key s = .ok res s' → s'.stack ≠ s.stack) ∧
    (∀ r n res, element L r n s = .ok res s' → s'.stack ≠ s.stack) := by
  refine ⟨fun r key res h => ?_, fun r n res h => ?_⟩
  · have := field_post L r key (s := s) rfl; rw [h] at this; rw [this.1]; exact fun h => hs h.symm
  · have := element_post L r n (s := s) rfl; rw [h] at this; rw [this.1]; exact fun h => hs h.symm

/-- reading a field while another value is on the stack loses that value -/
example : ∃ s', field exLua ⟨[.table 0], 2⟩ [70] (exOn (.int 1)) = .ok ⟨[.str [65]], 1⟩ s' ∧ s'.stack ≠ [.int 1] := by
  have h : ∃ s', field exLua ⟨[.table 0], 2⟩ [70] (exOn (.int 1)) = .ok ⟨[.str [65]], 1⟩ s' := ⟨_, rfl⟩
  obtain ⟨s', h⟩ := h
  exact ⟨s', h, (C55_field_fails exLua _ s' (by simp [exOn])).1 _ _ _ h⟩

/-- C55: field access leaves the stack as it was if it was empty, and finds the entry -/
theorem C55_field_partial (L : Lua F) (s s' : St F) (hs : s.stack = []) :
    (∀ r key res, field L r key s = .ok res s' → s'.stack = [] ∧
      ∃ a, r.refs.getLast? = some (.table a) ∧ res.refs = [(s.mem.heap a).gets key]) ∧
    (∀ r n res, element L r n s = .ok res s' → s'.stack = [] ∧
      ∃ a, r.refs.getLast? = some (.table a) ∧ res.refs = [(s.mem.heap a).geti n]) := by
  refine ⟨fun r key res h => ?_, fun r n res h => ?_⟩
  · have := field_post L r key (s := s) rfl; rw [h] at this
    obtain ⟨h1, -, a, ha, rfl⟩ := this
    exact ⟨h1, a, ha, rfl⟩
  · have := element_post L r n (s := s) rfl; rw [h] at this
    obtain ⟨h1, -, a, ha, rfl⟩ := this
    exact ⟨h1, a, ha, rfl⟩

example : ∃ s', field exLua ⟨[.table 0], 2⟩ [70] exSt = .ok ⟨[.str [65]], 1⟩ s' ∧ s'.stack = [] := by
  have h : ∃ s', field exLua ⟨[.table 0], 2⟩ [70] exSt = .ok ⟨[.str [65]], 1⟩ s' := ⟨_, rfl⟩
  obtain ⟨s', h⟩ := h
  exact ⟨s', h, ((C55_field_partial exLua _ s' rfl).1 _ _ _ h).1⟩

/-- C55: what a throwing operation leaves: everything that was on the stack is still there, below
whatever the operation had pushed -/
theorem C55_throws_partial (L : Lua F) (s s' : St F) :
    (∀ r t, convert L r t s = .throw s' → ∃ l, s'.stack = l ++ s.stack) ∧
    (∀ r ts, convertTuple L r ts s = .throw s' → ∃ l, s'.stack = l ++ s.stack) ∧
    (∀ r args, callResult L r args s = .throw s' → ∃ l, s'.stack = l ++ s.stack) ∧
    (∀ r key, field L r key s = .throw s' → ∃ l, s'.stack = l ++ s.stack) ∧
    (∀ r n, element L r n s = .throw s' → ∃ l, s'.stack = l ++ s.stack) ∧
    (∀ key, global key s ≠ .throw s') := by
  refine ⟨fun r t h => ?_, fun r ts h => ?_, fun r args h => ?_, fun r key h => ?_, fun r n h => ?_, fun key h => ?_⟩
  · have := convert_post L r t (s := s) rfl; rw [h] at this; exact this
  · have := convertTuple_post L r ts (s := s) rfl; rw [h] at this; exact this
  · have := callResult_post L r args (s := s) rfl; rw [h] at this; exact this
  · have := field_post L r key (s := s) rfl; rw [h] at this; exact this
  · have := element_post L r n (s := s) rfl; rw [h] at this; exact this
  · have := global_post key (s := s) rfl; rw [h] at this; exact this

/-- C55 as stated for throwing conversions: violated.  Converting anything that is not a number to
a number throws and leaves the value on the stack -/
theorem C55_throw_fails (L : Lua F) (s : St F) (v : Val F) (size : Nat) (hv : toNum L v = none)
    (hm : s.stack.length + 1 ≤ L.maxStack) :
    ∃ s', convert L ⟨[v], size⟩ .float s = .throw s' ∧ s'.stack = v :: s.stack := by
  obtain ⟨s1, e1, h1, -⟩ := pushLast_ok L ⟨[v], size⟩ v rfl (s := s) rfl hm
  refine ⟨s1, ?_, h1⟩
  unfold convert
  rw [if_neg (by simp), bind_of_ok e1, get, bind_of_ok (peek_eq h1), hv]
  rfl

example : ∃ s', convert exLua ⟨[.str [65]], 1⟩ .float exSt = .throw s' ∧ s'.stack = [.str [65]] :=
  C55_throw_fails exLua exSt (.str [65]) 1 rfl (by decide)

/-- a field of something that is not a table throws and leaves the value too -/
theorem C55_field_throw_fails (L : Lua F) (s : St F) (v : Val F) (size : Nat) (key : Bytes) (hv : ∀ a, v ≠ .table a)
    (hm : s.stack.length + 1 ≤ L.maxStack) :
    ∃ s', field L ⟨[v], size⟩ key s = .throw s' ∧ s'.stack = v :: s.stack := by
  obtain ⟨s1, e1, h1, -⟩ := pushLast_ok L ⟨[v], size⟩ v rfl (s := s) rfl hm
  refine ⟨s1, ?_, h1⟩
  unfold field
  obtain ⟨a, rfl, -⟩ | ⟨-, e⟩ := checkTable_eq h1
  · exact absurd rfl (hv a)
  · rw [bind_of_ok e1, bind_of_throw e]

example : ∃ s', field exLua ⟨[.int 3], 0⟩ [70] exSt = .throw s' ∧ s'.stack = [.int 3] :=
  C55_field_throw_fails exLua exSt (.int 3) 0 [70] (by simp) (by decide)

/-- C55: a script that returns values leaves them on the stack, one that fails leaves its error
message -/
theorem C55_run (L : Lua F) (s s' : St F) (script : Bytes) :
    (run L script s = .ok () s' → ∃ rs, L.script s.mem (cstr script) = .results s'.mem rs ∧ s'.stack = rs.reverse ++ s.stack) ∧
    (run L script s = .throw s' → ∃ e, s'.stack = e :: s.stack) := by
  have := run_post L script (s := s) rfl
  constructor
  · intro h; rw [h] at this; exact this
  · intro h; rw [h] at this; obtain ⟨e, -, h⟩ := this; exact ⟨e, h⟩

/-! ## whole sessions -/

/-- what a program can do; results are numbered in the order they were obtained -/
inductive Cmd (F : Type)
  | run (script : Bytes)
  | global (key : Bytes)
  | field (r : Nat) (key : Bytes)
  | element (r : Nat) (n : Int)
  | call (r : Nat) (args : List (Arg F))
  | convert (r : Nat) (t : Ty)
  | tuple (r : Nat) (ts : List Ty)

/-- one command -/
def step (L : Lua F) (env : List (Result F)) : Cmd F → M F (List (Result F))
  | .run script => do run L script; pure env
  | .global key => do pure (env ++ [← global key])
  | .field r key => match env[r]? with
    | some res => do pure (env ++ [← field L res key])
    | none => undef
  | .element r n => match env[r]? with
    | some res => do pure (env ++ [← element L res n])
    | none => undef
  | .call r args => match env[r]? with
    | some res => do pure (env ++ [← callResult L res args])
    | none => undef
  | .convert r t => match env[r]? with
    | some res => do let _ ← convert L res t; pure env
    | none => undef
  | .tuple r ts => match env[r]? with
    | some res => do let _ ← convertTuple L res ts; pure env
    | none => undef

/-- a program -/
def session (L : Lua F) (env : List (Result F)) : List (Cmd F) → M F (List (Result F))
  | [] => pure env
  | c :: cs => do
    let env' ← step L env c
    session L env' cs

/-- a script that returns no values -/
def Silent (L : Lua F) (script : Bytes) : Prop := ∀ m m' rs, L.script m (cstr script) = .results m' rs → rs = []

theorem step_stack (L : Lua F) (env env' : List (Result F)) (c : Cmd F) (s s' : St F) (hs : s.stack = [])
    (hc : ∀ script, c = .run script → Silent L script) (h : step L env c s = .ok env' s') : s'.stack = [] := by
  have aux : ∀ {α : Type} {x : M F α} {f : α → List (Result F)} {P : α → St F → Prop} {T : St F → Prop},
      (do pure (f (← x)) : M F _) s = .ok env' s' → Post (x s) P T True → ∃ a, P a s' := by
    intro α x f P T h hp
    obtain ⟨a, s1, e1, e2⟩ := bind_inv h
    cases e2
    rw [e1] at hp
    exact ⟨a, hp⟩
  cases c with
  | run script =>
    obtain ⟨-, rs, e, hst⟩ := aux h (run_post L script hs)
    rw [hc script rfl _ _ _ e] at hst
    simpa using hst
  | global key => exact (aux h (global_post key hs)).elim fun _ h => h.1
  | field r key =>
    rw [step] at h
    cases hr : env[r]? with
    | some res => rw [hr] at h; exact (aux h (field_post L _ key hs)).elim fun _ h => h.1
    | none => rw [hr] at h; cases h
  | element r n =>
    rw [step] at h
    cases hr : env[r]? with
    | some res => rw [hr] at h; exact (aux h (element_post L _ n hs)).elim fun _ h => h.1
    | none => rw [hr] at h; cases h
  | call r args =>
    rw [step] at h
    cases hr : env[r]? with
    | some res => rw [hr] at h; exact (aux h (callResult_post L _ args hs)).elim fun _ h => h.1
    | none => rw [hr] at h; cases h
  | convert r t =>
    rw [step] at h
    cases hr : env[r]? with
    | some res => rw [hr] at h; exact (aux h (convert_post L _ t hs)).elim fun _ h => h.1
    | none => rw [hr] at h; cases h
  | tuple r ts =>
    rw [step] at h
    cases hr : env[r]? with
    | some res => rw [hr] at h; exact (aux h (convertTuple_post L _ ts hs)).elim fun _ h => h.1
    | none => rw [hr] at h; cases h

/-- C55: any program of any length whose operations return and whose scripts return no values
leaves the stack empty -/
theorem C55_session (L : Lua F) (cs : List (Cmd F)) : ∀ (env env' : List (Result F)) (s s' : St F), s.stack = [] →
    (∀ script, Cmd.run script ∈ cs → Silent L script) → session L env cs s = .ok env' s' → s'.stack = [] := by
  induction cs with
  | nil => intro env env' s s' hs _ h; cases h; exact hs
  | cons c cs ih =>
    intro env env' s s' hs hc h
    obtain ⟨env1, s1, e1, e2⟩ := bind_inv h
    exact ih _ _ _ _ (step_stack L env env1 c s s1 hs (fun script e => hc script (by simp [e])) e1)
      (fun script hm => hc script (by simp [hm])) e2

/-- `n` failed conversions of a value `v`, each caught by the caller -/
def caught (L : Lua F) (v : Val F) : Nat → M F Unit
  | 0 => pure ()
  | n + 1 => fun s =>
    match convert L ⟨[v], 0⟩ .float s with
    | .ok _ s' => caught L v n s'
    | .throw s' => caught L v n s'
    | .ub => .ub

/-- C55: every caught failure leaves one more value on the stack, so once the slots Lua started
with are used up the next global access overflows -/
theorem C55_leak_fails (L : Lua F) (v : Val F) (hv : toNum L v = none) (n : Nat) : ∀ (s : St F), s.stack.length ≤ s.cap →
    s.stack.length + n ≤ L.maxStack →
    ∃ s', caught L v n s = .ok () s' ∧ s'.stack = List.replicate n v ++ s.stack ∧
      (s.cap ≤ s.stack.length + n → ∀ key, global key s' = .ub) := by
  suffices h : ∀ (s : St F), s.stack.length ≤ s.cap → s.stack.length + n ≤ L.maxStack →
      ∃ s', caught L v n s = .ok () s' ∧ s'.stack = List.replicate n v ++ s.stack ∧
        s'.cap = max s.cap (s.stack.length + n) by
    intro s hs hm
    obtain ⟨s', e, h1, h2⟩ := h s hs hm
    refine ⟨s', e, h1, fun hc key => ?_⟩
    unfold global
    rw [bind_of_ok (show getGlobal (cstr key) s' = .ok (s'.mem.globals (cstr key)) s' from rfl), bind_of_ub]
    unfold push
    rw [if_neg]
    rw [h1, h2]
    simp only [List.length_append, List.length_replicate]
    omega
  induction n with
  | zero => intro s hs _; exact ⟨s, rfl, by simp, by simp [hs]⟩
  | succ n ih =>
    intro s hs hm
    have hm1 : s.stack.length + 1 ≤ L.maxStack := by omega
    have e1 : convert L ⟨[v], 0⟩ .float s
        = .throw { s with cap := max s.cap (s.stack.length + 1), stack := v :: s.stack } := by
      unfold convert
      have hp : pushLast L ⟨[v], 0⟩ s = .ok () { s with cap := max s.cap (s.stack.length + 1), stack := v :: s.stack } := by
        unfold pushLast checkStack
        rw [bind_of_ok (a := ()) (s' := { s with cap := max s.cap (s.stack.length + 1) }) (by
          rw [bind_of_ok (a := true) (s' := { s with cap := max s.cap (s.stack.length + 1) }) (by simp [checkstack, hm1])]
          rfl)]
        simp [push]
        omega
      rw [if_neg (by simp), bind_of_ok hp, get, bind_of_ok (peek_eq rfl), hv]
      rfl
    obtain ⟨s2, e2, h2, c2⟩ := ih { s with cap := max s.cap (s.stack.length + 1), stack := v :: s.stack }
      (by simp only [List.length_cons]; omega) (by simp only [List.length_cons]; omega)
    refine ⟨s2, ?_, ?_, ?_⟩
    · unfold caught; rw [e1]; exact e2
    · rw [h2, List.replicate_succ']; simp
    · rw [c2]; simp only [List.length_cons]; omega

/-! ## examples -/

/-- a program: read the table, one of its entries, convert both, call the function -/
def exProg : List (Cmd Int) :=
  [.run [2], .global [66], .convert 0 (.vec (.int ⟨32, true⟩)), .element 0 2, .convert 1 .float, .global [67],
    .call 2 [.num 5, .bool true], .tuple 3 [.bool, .float, .int ⟨32, true⟩]]

/-- it runs to the end, and leaves an empty stack -/
example : (match session exLua [] exProg exSt with
    | .ok env s => decide (env.length = 4) && decide (s.stack.length = 0)
    | _ => false) = true := by decide +kernel

/-- converting a missing global twenty times uses up a fresh state -/
example : ∃ s', caught exLua (.nil : Val Int) 20 exSt = .ok () s' ∧ global [66] s' = .ub := by
  obtain ⟨s', h, -, h'⟩ := C55_leak_fails exLua .nil rfl 20 exSt (by simp [exSt]) (by simp [exSt, exLua])
  exact ⟨s', h, h' (by simp [exSt]) _⟩

end Verif.LuaStack
