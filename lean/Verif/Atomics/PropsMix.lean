import Verif.Atomics.Props
import Mathlib.Order.Lattice
import Mathlib.Tactic.NormNum

/-!
# C47 - C49: returned values of the native scheme, mixing schemes, atomic extrema
-/

namespace Verif.Atomics

/-! ## C47 -/

/-- C47 is false: two threads add 1 and 10 to 0 under the native scheme; both calls return 11,
though the first addition produced 1.  (Loads return the current value.) -/
theorem C47_returned_value_fails :
    ∃ tr s, Exec true (init (fun _ : Unit => (0 : Int))
        (two ⟨.native, (), binary (· + 1)⟩ ⟨.native, (), binary (· + 10)⟩)) tr s ∧ Finished s ∧
      Event.ret true 11 ∈ tr ∧ Event.ret false 11 ∈ tr ∧
      Event.commit true ⟨.native, (), binary (· + 1)⟩ 1 ∈ tr := by
  refine ⟨_, _, .snoc true (.snoc false (.snoc false (.snoc true .nil
    (.fetch ⟨.native, (), binary (· + 1)⟩ [] rfl rfl))
    (.fetch ⟨.native, (), binary (· + 10)⟩ [] rfl rfl))
    (.reload ⟨.native, (), binary (· + 10)⟩ [] 11 rfl (.inl rfl)))
    (.reload ⟨.native, (), binary (· + 1)⟩ [] 11 rfl (.inl rfl)), ?_, ?_, ?_, ?_⟩
  · intro i; cases i <;> rfl
  · simp
  · simp
  · simp [binary, init]

section
variable {ι V T : Type} [DecidableEq ι] [DecidableEq V]

/-- an update of another variable leaves this one -/
theorem step_var {sc : Bool} {s s' : State ι V T} {j : ι} {ev : List (Event ι V T)} (h : Step sc s j ev s') (v : V)
    (hv : ∀ e ∈ commits ev, e.2.1.var ≠ v) : s'.cur v = s.cur v := by
  cases h with
  | load => rfl
  | casOk op rest old h1 h2 =>
    have : v ≠ op.var := fun e => hv _ (by simp [commits]; rfl) e.symm
    simp [State.setThr, State.write, this]
  | casFail => rfl
  | fetch op rest h1 h2 =>
    have : v ≠ op.var := fun e => hv _ (by simp [commits]; rfl) e.symm
    simp [State.setThr, State.write, this]
  | reload => rfl
  | unary op rest h1 h2 =>
    have : v ≠ op.var := fun e => hv _ (by simp [commits]; rfl) e.symm
    simp [State.setThr, State.write, this]
  | acquire => rfl
  | lockRead => rfl
  | lockWrite op rest old h1 =>
    have : v ≠ op.var := fun e => hv _ (by simp [commits]; rfl) e.symm
    simp [State.setThr, State.write, this]
  | release => rfl
  | serRead => rfl
  | serWrite op rest old h1 =>
    have : v ≠ op.var := fun e => hv _ (by simp [commits]; rfl) e.symm
    simp [State.setThr, State.write, this]

theorem fetched_inv {m0 : V → T} {progs : ι → List (Op V T)} {tr : List (Event ι V T)} {s : State ι V T}
    (h : Exec true (init m0 progs) tr s) (i : ι) {op : Op V T} {rest : List (Op V T)}
    (hf : s.thr i = ⟨op :: rest, .fetched⟩) :
    ∃ a b old, tr = a ++ .commit i op (op.f old).2 :: b ∧
      ((∀ e ∈ commits b, e.2.1.var ≠ op.var) → s.cur op.var = (op.f old).1) := by
  induction h with
  | nil => simp [init] at hf
  | @snoc tr s1 s2 ev j hex hst ih =>
    by_cases hi : i = j
    · subst hi
      cases hst with
      | fetch op' rest' h1 h2 =>
        simp only [State.setThr, Function.update_self, Thread.mk.injEq, List.cons.injEq] at hf
        obtain ⟨⟨rfl, rfl⟩, _⟩ := hf
        refine ⟨tr ++ [.invoke i], [], s1.cur op'.var, by simp, fun _ => ?_⟩
        simp [State.setThr, State.write]
      | _ => simp [State.setThr] at hf
    · rw [(step_frame hst).1 i hi] at hf
      obtain ⟨a, b, old, htr, hc⟩ := ih hf
      refine ⟨a, b ++ ev, old, by rw [htr]; simp, fun hb => ?_⟩
      rw [commits_append] at hb
      rw [step_var hst op.var fun e he => hb e (by simp [he])]
      exact hc fun e he => hb e (by simp [he])

/-- the value the updates recorded in `tr` leave in the variable `v`, which held `r` before: the
result of the last one -/
def lastValue (v : V) (r : T) (tr : List (Event ι V T)) : T :=
  (((commits tr).filter fun e => e.2.1.var = v).getLast?.map fun e => e.2.2).getD r

theorem lastValue_append (v : V) (r : T) (a b : List (Event ι V T)) :
    lastValue v r (a ++ b) = lastValue v (lastValue v r a) b := by
  rw [lastValue, lastValue, lastValue, commits_append, List.filter_append, List.getLast?_append]
  cases (List.filter (fun e : ι × Op V T × T => decide (e.2.1.var = v)) (commits b)).getLast? <;> rfl

/-- a step leaves in a variable the result of its update of it -/
theorem step_last {sc : Bool} {s s' : State ι V T} {j : ι} {ev : List (Event ι V T)} (h : Step sc s j ev s') (v : V)
    (hb : ∀ op rest, (s.thr j).todo = op :: rest → ∃ g, op.f = binary g) :
    s'.cur v = lastValue v (s.cur v) ev := by
  cases h with
  | load => rfl
  | casOk op rest old h1 h2 =>
    obtain ⟨g, hg⟩ := hb op rest (by rw [h1])
    by_cases e : op.var = v
    · subst e; simp [State.setThr, State.write, lastValue, commits, hg, binary]
    · simp [State.setThr, State.write, lastValue, commits, e, Ne.symm e]
  | casFail => rfl
  | fetch op rest h1 h2 =>
    obtain ⟨g, hg⟩ := hb op rest (by rw [h1])
    by_cases e : op.var = v
    · subst e; simp [State.setThr, State.write, lastValue, commits, hg, binary]
    · simp [State.setThr, State.write, lastValue, commits, e, Ne.symm e]
  | reload => rfl
  | unary op rest h1 h2 =>
    obtain ⟨g, hg⟩ := hb op rest (by rw [h1])
    by_cases e : op.var = v
    · subst e; simp [State.setThr, State.write, lastValue, commits, hg, binary]
    · simp [State.setThr, State.write, lastValue, commits, e, Ne.symm e]
  | acquire => rfl
  | lockRead => rfl
  | lockWrite op rest old h1 =>
    obtain ⟨g, hg⟩ := hb op rest (by rw [h1])
    by_cases e : op.var = v
    · subst e; simp [State.setThr, State.write, lastValue, commits, hg, binary]
    · simp [State.setThr, State.write, lastValue, commits, e, Ne.symm e]
  | release => rfl
  | serRead => rfl
  | serWrite op rest old h1 =>
    obtain ⟨g, hg⟩ := hb op rest (by rw [h1])
    by_cases e : op.var = v
    · subst e; simp [State.setThr, State.write, lastValue, commits, hg, binary]
    · simp [State.setThr, State.write, lastValue, commits, e, Ne.symm e]

theorem fetched_last {m0 : V → T} {progs : ι → List (Op V T)} {tr : List (Event ι V T)} {s : State ι V T}
    (hb : ∀ j, ∀ op ∈ progs j, ∃ g, op.f = binary g)
    (h : Exec true (init m0 progs) tr s) (i : ι) {op : Op V T} {rest : List (Op V T)}
    (hf : s.thr i = ⟨op :: rest, .fetched⟩) :
    ∃ a b r, tr = a ++ .commit i op r :: b ∧ (∀ e ∈ commits b, e.1 ≠ i) ∧ s.cur op.var = lastValue op.var r b := by
  induction h with
  | nil => simp [init] at hf
  | @snoc tr s1 s2 ev j hex hst ih =>
    have hbin : ∀ op rest, (s1.thr j).todo = op :: rest → ∃ g, op.f = binary g := by
      intro op rest h
      obtain ⟨d, hd⟩ := exec_todo hex j
      exact hb j op (by rw [← hd, h]; simp)
    by_cases hi : i = j
    · subst hi
      cases hst with
      | fetch op' rest' h1 h2 =>
        simp only [State.setThr, Function.update_self, Thread.mk.injEq, List.cons.injEq] at hf
        obtain ⟨⟨rfl, rfl⟩, _⟩ := hf
        obtain ⟨g, hg⟩ := hbin op' rest' (by rw [h1])
        refine ⟨tr ++ [.invoke i], [], (op'.f (s1.cur op'.var)).2, by simp, by simp [commits], ?_⟩
        simp [State.setThr, State.write, lastValue, commits, hg, binary]
      | _ => simp [State.setThr] at hf
    · rw [(step_frame hst).1 i hi] at hf
      obtain ⟨a, b, r, htr, hown, hc⟩ := ih hf
      refine ⟨a, b ++ ev, r, by rw [htr]; simp, ?_, ?_⟩
      · intro e he
        rw [commits_append, List.mem_append] at he
        rcases he with he | he
        · exact hown e he
        · have : e.1 = j := by
            cases hst <;> simp [commits] at he <;> rw [he]
          rw [this]; exact fun e => hi e.symm
      · rw [step_last hst op.var hbin, hc, lastValue_append]

/-- C47, exactly what a native call returns: the result of the last update of the variable, by any
thread, between its own update and its second read, and its own result when there is none.  So it
returns its own result exactly when no other update of that variable comes in between or the last
one happens to leave the same value. -/
theorem C47_returned_value_iff {m0 : V → T} {progs : ι → List (Op V T)} {tr : List (Event ι V T)}
    {s s' : State ι V T} {i : ι} {x : T} (h : Exec true (init m0 progs) tr s)
    (hb : ∀ j, ∀ op ∈ progs j, ∃ g, op.f = binary g)
    (hpc : (s.thr i).pc = .fetched) (hst : Step true s i [.ret i x] s') :
    ∃ a b op r, tr = a ++ .commit i op r :: b ∧ op ∈ progs i ∧ (∀ e ∈ commits b, e.1 ≠ i) ∧
      (x = r ↔ (∀ e ∈ commits b, e.2.1.var ≠ op.var) ∨
        ∃ c d e, commits b = c ++ e :: d ∧ e.2.1.var = op.var ∧ (∀ e' ∈ d, e'.2.1.var ≠ op.var) ∧ e.2.2 = r) ∧
      ((∀ e ∈ commits b, e.2.1.var ≠ op.var) ∨
        ∃ c d e, commits b = c ++ e :: d ∧ e.2.1.var = op.var ∧ (∀ e' ∈ d, e'.2.1.var ≠ op.var) ∧ e.2.2 = x) := by
  have aux : ∀ evs, evs = [Event.ret i x] → Step true s i evs s' →
      ∃ op rest, s.thr i = ⟨op :: rest, .fetched⟩ ∧ x = s.cur op.var := by
    intro evs hev hst
    cases hst with
    | reload op rest y h1 h2 =>
      simp only [List.cons.injEq, Event.ret.injEq, and_true, true_and] at hev
      subst hev
      refine ⟨op, rest, h1, ?_⟩
      rcases h2 with h2 | h2
      · exact h2
      · simp at h2
    | release op rest r h1 => rw [h1] at hpc; simp at hpc
    | _ => simp at hev
  obtain ⟨op, rest, h1, hx⟩ := aux _ rfl hst
  obtain ⟨a, b, r, htr, hown, hc⟩ := fetched_last hb h i h1
  have hop : op ∈ progs i := by
    obtain ⟨d, hd⟩ := exec_todo h i
    rw [← hd, h1]; simp
  refine ⟨a, b, op, r, htr, hop, hown, ?_⟩
  rw [hc] at hx
  have split : ∀ l : List (ι × Op V T × T),
      ((∀ e ∈ l, e.2.1.var ≠ op.var) ∧ (l.filter fun e => e.2.1.var = op.var).getLast? = none) ∨
      ∃ c d e, l = c ++ e :: d ∧ e.2.1.var = op.var ∧ (∀ e' ∈ d, e'.2.1.var ≠ op.var) ∧
        (l.filter fun e => e.2.1.var = op.var).getLast? = some e := by
    intro l
    induction l with
    | nil => left; simp
    | cons e l ih =>
      rcases ih with ⟨h1, h2⟩ | ⟨c, d, e', rfl, h1, h2, h3⟩
      · by_cases he : e.2.1.var = op.var
        · right
          refine ⟨[], l, e, rfl, he, h1, ?_⟩
          rw [List.getLast?_eq_none_iff] at h2
          rw [List.filter_cons_of_pos (by simpa using he), h2]; rfl
        · left
          refine ⟨fun e' h' => ?_, by rw [List.filter_cons_of_neg (by simpa using he), h2]⟩
          rcases List.mem_cons.1 h' with rfl | h'
          · exact he
          · exact h1 e' h'
      · right
        refine ⟨e :: c, d, e', rfl, h1, h2, ?_⟩
        by_cases he : e.2.1.var = op.var
        · rw [List.filter_cons_of_pos (by simpa using he), List.getLast?_cons, h3]; rfl
        · rw [List.filter_cons_of_neg (by simpa using he), h3]
  rcases split (commits b) with ⟨h2, h3⟩ | ⟨c, d, e, h2, h3, h4, h5⟩
  · rw [lastValue, h3] at hx
    exact ⟨⟨fun _ => Or.inl h2, fun _ => hx⟩, Or.inl h2⟩
  · rw [lastValue, h5] at hx
    have hx : x = e.2.2 := hx
    refine ⟨⟨fun hr => Or.inr ⟨c, d, e, h2, h3, h4, hx ▸ hr⟩, ?_⟩, Or.inr ⟨c, d, e, h2, h3, h4, hx.symm⟩⟩
    rintro (hno | ⟨c', d', e', h2', h3', h4', hr⟩)
    · exact absurd h3 (hno e (by rw [h2]; simp))
    · rw [hx, ← hr]
      have : ((commits b).filter fun e => e.2.1.var = op.var).getLast? = some e' := by
        have hd : d'.filter (fun e => e.2.1.var = op.var) = [] :=
          List.filter_eq_nil_iff.2 (fun q hq => by simpa using h4' q hq)
        rw [h2', List.filter_append, List.filter_cons_of_pos (by simpa using h3'), hd]
        simp
      rw [h5] at this
      rw [Option.some.inj this]

/-- both threads add to the same variable, the second one in between -/
example : ∃ tr s s', Exec true (init (fun _ : Unit => (0 : Int))
      (two ⟨.native, (), binary (· + 1)⟩ ⟨.native, (), binary (· + 10)⟩)) tr s ∧ (s.thr true).pc = .fetched ∧
      Step true s true [.ret true 11] s' :=
  ⟨_, _, _, .snoc false (.snoc true .nil (.fetch ⟨.native, (), binary (· + 1)⟩ [] rfl rfl))
    (.fetch ⟨.native, (), binary (· + 10)⟩ [] rfl rfl), rfl,
    .reload ⟨.native, (), binary (· + 1)⟩ [] 11 rfl (.inl rfl)⟩

/-- C47 as far as it holds: a native call returns the value its own update produced if no other
update of the same variable takes effect between its fetch and its second read.  (Missing: the
other schedules, see `C47_returned_value_fails`.) -/
theorem C47_undisturbed_partial {m0 : V → T} {progs : ι → List (Op V T)} {tr : List (Event ι V T)}
    {s s' : State ι V T} {i : ι} {x : T} (h : Exec true (init m0 progs) tr s)
    (hb : ∀ op ∈ progs i, ∃ g, op.f = binary g)
    (hpc : (s.thr i).pc = .fetched) (hst : Step true s i [.ret i x] s') :
    ∃ a b op r, tr = a ++ .commit i op r :: b ∧ op ∈ progs i ∧
      ((∀ e ∈ commits b, e.2.1.var ≠ op.var) → x = r) := by
  have aux : ∀ evs, evs = [Event.ret i x] → Step true s i evs s' →
      ∃ op rest, s.thr i = ⟨op :: rest, .fetched⟩ ∧ x = s.cur op.var := by
    intro evs hev hst
    cases hst with
    | reload op rest y h1 h2 =>
      simp only [List.cons.injEq, Event.ret.injEq, and_true, true_and] at hev
      subst hev
      refine ⟨op, rest, h1, ?_⟩
      rcases h2 with h2 | h2
      · exact h2
      · simp at h2
    | release op rest r h1 => rw [h1] at hpc; simp at hpc
    | _ => simp at hev
  obtain ⟨op, rest, h1, hx⟩ := aux _ rfl hst
  obtain ⟨a, b, old, htr, hc⟩ := fetched_inv h i h1
  have hop : op ∈ progs i := by
    obtain ⟨d, hd⟩ := exec_todo h i
    rw [← hd, h1]; simp
  refine ⟨a, b, op, _, htr, hop, fun hq => ?_⟩
  obtain ⟨g, hg⟩ := hb op hop
  rw [hx, hc hq, hg]
  rfl

example : ∃ tr s s', Exec true (init (fun _ : Unit => (0 : Int))
      (two ⟨.native, (), binary (· + 1)⟩ ⟨.unary, (), preOp (· + 1)⟩)) tr s ∧ Step true s true [.ret true 2] s' ∧
      ∃ a b op r, tr = a ++ .commit true op r :: b ∧ ((∀ e ∈ commits b, e.2.1.var ≠ op.var) → 2 = r) := by
  obtain ⟨tr, s, h, hpc, ⟨s', hst⟩, -⟩ := nativeRun
  obtain ⟨a, b, op, r, h1, -, h3⟩ := C47_undisturbed_partial h (by simp [two]) hpc hst
  exact ⟨tr, s, s', h, hst, a, b, op, r, h1, h3⟩

/-- C47: `++` and `--` under the native scheme do return the value their own update produced -/
theorem C47_increment {sc : Bool} {m0 : V → T} {progs : ι → List (Op V T)} {tr : List (Event ι V T)}
    {s : State ι V T} (hp : ∀ i, ∀ op ∈ progs i, op.scheme = .unary) (h : Exec sc (init m0 progs) tr s) (i : ι) :
    Serial m0 (commits tr) s.cur ∧ ∃ done, done ++ (s.thr i).todo = progs i ∧ Calls i done (proj i tr) := by
  obtain ⟨h1, h2⟩ := C44_linearizable (fun i op ho => .inr (.inr (hp i op ho))) h
  obtain ⟨done, calls, part, hd, hc, hpr, _, hpart⟩ := h2 i
  refine ⟨h1, done, hd, ?_⟩
  obtain ⟨d2, c2, p2, _, _, hin, _⟩ := calls_inv (fun i op ho => by simp [hp i op ho]) h i
  -- no thread is ever inside a loop
  have hidle : ∀ old, (s.thr i).pc ≠ .loaded old := by
    intro old hl
    generalize ht : s.thr i = t at hin hl
    cases hin with
    | loaded k =>
      have := loaded_scheme h i _ _ _ ht
      obtain ⟨d, hd⟩ := exec_todo h i
      rw [hp i _ (by rw [← hd, ht]; simp)] at this
      simp at this
    | _ => simp at hl
  obtain ⟨d3, c3, p3, hd3, hc3, hin3, hpr3⟩ := calls_inv (fun i op ho => by simp [hp i op ho]) h i
  have hat := ((mix_inv (fun i op ho => by rw [hp i op ho]; rfl) h).2 i).1.2
  have hp3 : p3 = [] := by
    generalize s.thr i = t at hin3 hidle hat
    cases hin3 with
    | idle => rfl
    | loaded k => exact absurd rfl (hidle _)
    | _ => simp at hat
  subst hp3
  rw [List.append_nil] at hpr3
  have : d3 = done := List.append_cancel_right (hd3.trans hd.symm)
  rw [hpr3, ← this]
  exact hc3

example : ∃ tr s, Exec true (init (fun _ : Unit => (0 : Int))
      (two ⟨.unary, (), preOp (· + 1)⟩ ⟨.unary, (), postOp (· + 1)⟩)) tr s ∧ s.cur () = 2 ∧
      Serial (fun _ => 0) (commits tr) s.cur := by
  obtain ⟨tr, s, h, -, h2⟩ := unaryRun
  exact ⟨tr, s, h, h2, (C47_increment (by intro i; cases i <;> simp [two]) h true).1⟩

end

/-! ## C48 -/

/-- C48 is false when the lock scheme meets another one on the same variable: the lock call reads
0, the other thread's compare-exchange adds 1 and succeeds, the lock call writes 10: one addition
is lost, and both calls have returned -/
theorem C48_lock_mixed_fails :
    ∃ tr s, Exec true (init (fun _ : Unit => (0 : Int))
        (two ⟨.lock, (), binary (· + 10)⟩ ⟨.strong, (), binary (· + 1)⟩)) tr s ∧ Finished s ∧ s.cur () = 10 := by
  refine ⟨_, _, .snoc true (.snoc true (.snoc false (.snoc false (.snoc true (.snoc true .nil
    (.acquire ⟨.lock, (), binary (· + 10)⟩ [] rfl rfl rfl))
    (.lockRead ⟨.lock, (), binary (· + 10)⟩ [] rfl))
    (.load ⟨.strong, (), binary (· + 1)⟩ [] 0 rfl (.inl rfl) (.inl rfl)))
    (.casOk ⟨.strong, (), binary (· + 1)⟩ [] 0 rfl rfl))
    (.lockWrite ⟨.lock, (), binary (· + 10)⟩ [] 0 rfl))
    (.release ⟨.lock, (), binary (· + 10)⟩ [] 10 rfl), ?_, rfl⟩
  intro i; cases i <;> rfl

/-- C48 is false for the serial scheme in two threads: one of two additions is lost -/
theorem C48_serial_threads_fails :
    ∃ tr s, Exec true (init (fun _ : Unit => (0 : Int))
        (two ⟨.serial, (), binary (· + 10)⟩ ⟨.serial, (), binary (· + 1)⟩)) tr s ∧ Finished s ∧ s.cur () = 10 := by
  refine ⟨_, _, .snoc true (.snoc false (.snoc false (.snoc true .nil
    (.serRead ⟨.serial, (), binary (· + 10)⟩ [] rfl rfl))
    (.serRead ⟨.serial, (), binary (· + 1)⟩ [] rfl rfl))
    (.serWrite ⟨.serial, (), binary (· + 1)⟩ [] 0 rfl))
    (.serWrite ⟨.serial, (), binary (· + 10)⟩ [] 0 rfl), ?_, rfl⟩
  intro i; cases i <;> rfl

/-- C48 is false when the operand has another type: `x += 0.5` on an integer -1 gives 0 under the
compare-exchange, lock and serial schemes and leaves -1 under the native one -/
theorem C48_mixed_types_fails : ∃ (lhs : Int) (val : ℚ), addMixed val lhs ≠ fetchAddMixed val lhs := by
  refine ⟨-1, 1 / 2, ?_⟩
  have h1 : addMixed (1 / 2) (-1) = 0 := by
    rw [addMixed, toInt, if_neg (by norm_num), Int.ceil_eq_iff]; norm_num
  have h2 : fetchAddMixed (1 / 2) (-1) = -1 := by
    have : ⌊(1 / 2 : ℚ)⌋ = 0 := by rw [Int.floor_eq_iff]; norm_num
    rw [fetchAddMixed, toInt, if_pos (by norm_num), this]; norm_num
  rw [h1, h2]; decide

theorem toInt_intCast (n : Int) : toInt n = n := by
  simp [toInt]

/-- C48: with an operand whose value is integral, the two forms agree -/
theorem C48_mixed_types_partial (lhs val : Int) : addMixed val lhs = fetchAddMixed val lhs := by
  have : ((lhs : ℚ) + (val : ℚ)) = ((lhs + val : Int) : ℚ) := by push_cast; rfl
  rw [addMixed, fetchAddMixed, this, toInt_intCast, toInt_intCast]

/-- C48 exactly: the two forms agree if and only if the operand is integral or neither the operand nor the sum crosses zero:
both are at least zero or both are at most zero -/
theorem C48_mixed_types_iff (lhs : Int) (val : ℚ) :
    addMixed val lhs = fetchAddMixed val lhs ↔
      (∃ n : Int, val = n) ∨ (0 ≤ val ∧ 0 ≤ lhs + val) ∨ (val ≤ 0 ∧ lhs + val ≤ 0) := by
  have hint : ⌊val⌋ = ⌈val⌉ → ∃ n : Int, val = n := by
    intro h
    refine ⟨⌊val⌋, le_antisymm ?_ (Int.floor_le val)⟩
    have := Int.le_ceil val
    rw [← h] at this
    exact this
  by_cases hi : ∃ n : Int, val = n
  · obtain ⟨n, rfl⟩ := hi
    simp only [C48_mixed_types_partial, true_iff]
    exact .inl ⟨n, rfl⟩
  · have hne : val ≠ 0 := fun e => hi ⟨0, by simpa using e⟩
    have hs : (lhs : ℚ) + val ≠ 0 := fun e => hi ⟨-lhs, by push_cast; linarith⟩
    rw [addMixed, fetchAddMixed, toInt, toInt, Int.floor_intCast_add, Int.ceil_intCast_add]
    have hfc : ⌊val⌋ ≠ ⌈val⌉ := fun e => hi (hint e)
    by_cases h1 : 0 ≤ val <;> by_cases h2 : 0 ≤ (lhs : ℚ) + val
    · simp only [h1, h2, if_true, true_iff]; exact .inr (.inl ⟨trivial, trivial⟩)
    · simp only [h1, h2, if_true, if_false]
      constructor
      · intro e; exact absurd (by linarith : ⌊val⌋ = ⌈val⌉) hfc
      · rintro (h | h | h)
        · exact absurd h hi
        · exact absurd h.2 (by simp)
        · exact absurd (le_antisymm h.1 h1) hne
    · simp only [h1, h2, if_true, if_false]
      constructor
      · intro e; exact absurd (by linarith : ⌊val⌋ = ⌈val⌉) hfc
      · rintro (h | h | h)
        · exact absurd h hi
        · exact absurd h.1 (by simp)
        · exact absurd (le_antisymm h.2 h2) hs
    · simp only [h1, h2, if_false, true_iff]
      exact .inr (.inr ⟨by linarith, by linarith⟩)

example : addMixed (1 / 2) 3 = fetchAddMixed (1 / 2) 3 ∧ addMixed (1 / 2) (-3) ≠ fetchAddMixed (1 / 2) (-3) := by
  have hn : ¬ ∃ n : Int, (1 / 2 : ℚ) = n := by
    rintro ⟨n, h⟩
    have : (1 : ℚ) = ((2 * n : Int) : ℚ) := by push_cast; linarith
    have : (1 : Int) = 2 * n := by exact_mod_cast this
    omega
  rw [ne_eq, C48_mixed_types_iff, C48_mixed_types_iff]
  constructor
  · exact .inr (.inl ⟨by norm_num, by norm_num⟩)
  · rintro (h | h | h)
    · exact hn h
    · norm_num at h
    · norm_num at h

section
variable {ι V T : Type} [DecidableEq ι] [DecidableEq V]

/-- a thread running alone: what it read is still in memory -/
theorem alone_inv {m0 : V → T} {progs : ι → List (Op V T)} {tr : List (Event ι V T)} {s : State ι V T} {i : ι}
    (ha : ∀ j, j ≠ i → progs j = []) (h : Exec true (init m0 progs) tr s) :
    Serial m0 (commits tr) s.cur ∧ (∀ j, j ≠ i → (s.thr j).todo = []) ∧
    (∀ op rest old, s.thr i = ⟨op :: rest, .lockRead old⟩ ∨ s.thr i = ⟨op :: rest, .serRead old⟩ →
      old = s.cur op.var) := by
  induction h with
  | nil =>
    refine ⟨rfl, ha, ?_⟩
    intro op rest old h
    simp [init] at h
  | @snoc tr s1 s2 ev j hex hst ih =>
    obtain ⟨ihs, iht, ihr⟩ := ih
    have hji : j = i := by
      by_contra hne
      have := iht j hne
      cases hst <;> simp_all
    subst hji
    have ht2 : ∀ k, k ≠ j → (s2.thr k).todo = [] := fun k hk => by rw [(step_frame hst).1 k hk]; exact iht k hk
    refine ⟨?_, ht2, ?_⟩
    · rw [commits_append]
      cases hst with
      | load => simpa [commits, State.setThr] using ihs
      | casOk op rest old h1 h2 => subst h2; exact serial_snoc ihs j op
      | casFail => simpa [commits, State.setThr] using ihs
      | fetch op rest h1 h2 => exact serial_snoc ihs j op
      | reload => simpa [commits, State.setThr] using ihs
      | unary op rest h1 h2 => exact serial_snoc ihs j op
      | acquire => simpa [commits, State.setThr] using ihs
      | lockRead => simpa [commits, State.setThr] using ihs
      | lockWrite op rest old h1 =>
        have := ihr op rest old (.inl h1)
        subst this; exact serial_snoc ihs j op
      | release => simpa [commits, State.setThr] using ihs
      | serRead => simpa [commits, State.setThr] using ihs
      | serWrite op rest old h1 =>
        have := ihr op rest old (.inr h1)
        subst this; exact serial_snoc ihs j op
    · intro op' rest' old' he
      cases hst with
      | lockRead op rest h1 =>
        simp only [State.setThr, Function.update_self, Thread.mk.injEq, List.cons.injEq, Pc.lockRead.injEq,
          reduceCtorEq, and_false, or_false] at he
        obtain ⟨⟨rfl, rfl⟩, rfl⟩ := he
        rfl
      | serRead op rest h1 =>
        simp only [State.setThr, Function.update_self, Thread.mk.injEq, List.cons.injEq, Pc.serRead.injEq,
          reduceCtorEq, and_false, false_or] at he
        obtain ⟨⟨rfl, rfl⟩, rfl⟩ := he
        rfl
      | _ => simp [State.setThr] at he

/-- memory after some updates in order -/
def runAll (m : V → T) : List (Op V T) → V → T
  | [] => m
  | op :: l => runAll (Function.update m op.var (op.f (m op.var)).1) l

/-- what of a program has not taken effect yet -/
def waiting (t : Thread V T) : List (Op V T) :=
  match t.pc with
  | .fetched => t.todo.tail
  | .lockWrote _ => t.todo.tail
  | _ => t.todo

/-- C48, for every mix of schemes, whatever the memory order: each thread's updates take effect in
program order, none skipped and none twice.  (What the lock and serial schemes lose when mixed
is the effect of *other* threads.) -/
theorem C48_program_order {sc : Bool} {m0 : V → T} {progs : ι → List (Op V T)} {tr : List (Event ι V T)}
    {s : State ι V T} (h : Exec sc (init m0 progs) tr s) (i : ι) :
    opsOf i (commits tr) ++ waiting (s.thr i) = progs i := by
  induction h with
  | nil => rfl
  | @snoc tr s1 s2 ev j hex hst ih =>
    rw [commits_append, opsOf_append]
    by_cases hi : i = j
    · subst hi
      cases hst with
      | load op rest x h1 h2 h3 => rw [h1] at ih; simpa [commits, opsOf, waiting, State.setThr] using ih
      | casOk op rest old h1 h2 => rw [h1] at ih; simpa [commits, opsOf, waiting, State.setThr] using ih
      | casFail op rest old x h1 h2 h3 => rw [h1] at ih; simpa [commits, opsOf, waiting, State.setThr] using ih
      | fetch op rest h1 h2 => rw [h1] at ih; simpa [commits, opsOf, waiting, State.setThr] using ih
      | reload op rest x h1 h2 => rw [h1] at ih; simpa [commits, opsOf, waiting, State.setThr] using ih
      | unary op rest h1 h2 => rw [h1] at ih; simpa [commits, opsOf, waiting, State.setThr] using ih
      | acquire op rest h1 h2 h3 => rw [h1] at ih; simpa [commits, opsOf, waiting, State.setThr] using ih
      | lockRead op rest h1 => rw [h1] at ih; simpa [commits, opsOf, waiting, State.setThr] using ih
      | lockWrite op rest old h1 => rw [h1] at ih; simpa [commits, opsOf, waiting, State.setThr] using ih
      | release op rest r h1 => rw [h1] at ih; simpa [commits, opsOf, waiting, State.setThr] using ih
      | serRead op rest h1 h2 => rw [h1] at ih; simpa [commits, opsOf, waiting, State.setThr] using ih
      | serWrite op rest old h1 => rw [h1] at ih; simpa [commits, opsOf, waiting, State.setThr] using ih
    · rw [(step_frame hst).1 i hi]
      have : opsOf i (commits ev) = [] := by
        have hw := (step_frame hst).2
        clear hst
        induction ev with
        | nil => rfl
        | cons e ev ihe =>
          have hrest := ihe fun e he => hw e (by simp [he])
          have he := hw e (by simp)
          cases e with
          | commit k op r =>
            have hk : k = j := he
            have hne : ¬ k = i := fun e => hi (e.symm.trans hk)
            simpa [commits, opsOf, hne] using hrest
          | _ => simpa [commits] using hrest
      rw [this, List.append_nil]
      exact ih

example : ∃ tr s, Exec true (init (fun _ : Unit => (0 : Int))
      (fun i : Bool => if i then [⟨.strong, (), binary (· + 1)⟩, ⟨.native, (), binary (· + 2)⟩] else [])) tr s ∧
      s.cur () = 3 ∧
      opsOf true (commits tr) ++ waiting (s.thr true) = [⟨.strong, (), binary (· + 1)⟩, ⟨.native, (), binary (· + 2)⟩] := by
  obtain ⟨tr, s, h, -, h3⟩ := aloneRun
  exact ⟨tr, s, h, h3, C48_program_order h true⟩

theorem waiting_finished {s : State ι V T} (hf : Finished s) (i : ι) : waiting (s.thr i) = [] := by
  unfold waiting
  split <;> simp [hf i]

/-- C48: in a single thread every mix of schemes, the serial one included, gives the same memory:
the updates applied in program order -/
theorem C48_single_thread {m0 : V → T} {progs : ι → List (Op V T)} {tr : List (Event ι V T)} {s : State ι V T} {i : ι}
    (ha : ∀ j, j ≠ i → progs j = []) (h : Exec true (init m0 progs) tr s) (hf : Finished s) :
    s.cur = runAll m0 (progs i) := by
  obtain ⟨h1, _, _⟩ := alone_inv ha h
  have h2 := fun j => C48_program_order h j
  have hi := h2 i
  rw [waiting_finished hf i, List.append_nil] at hi
  have hown : ∀ e ∈ commits tr, e.1 = i := by
    intro e he
    by_contra hne
    have h3 := h2 e.1
    rw [ha e.1 hne, List.append_eq_nil_iff] at h3
    have : e.2.1 ∈ opsOf e.1 (commits tr) := by
      rw [opsOf, List.mem_map]; exact ⟨e, by simp [he], rfl⟩
    rw [h3.1] at this
    simp at this
  rw [← hi]
  generalize commits tr = l at h1 hown
  generalize s.cur = m at h1
  clear hi h2 hf h ha
  induction l generalizing m0 with
  | nil => exact h1
  | cons e l ih =>
    have he := hown e (by simp)
    have : opsOf i (e :: l) = e.2.1 :: opsOf i l := by simp [opsOf, he]
    rw [this]
    exact ih (fun e' h' => hown e' (by simp [h'])) h1.2

example : ∃ tr s, Exec true (init (fun _ : Unit => (0 : Int))
      (fun i : Bool => if i then [⟨.strong, (), binary (· + 1)⟩, ⟨.native, (), binary (· + 2)⟩] else [])) tr s ∧
      s.cur = runAll (fun _ => 0) [⟨.strong, (), binary (· + 1)⟩, ⟨.native, (), binary (· + 2)⟩] := by
  obtain ⟨tr, s, h, hf, -⟩ := aloneRun
  exact ⟨tr, s, h, C48_single_thread (i := true) (by simp) h hf⟩

/-! ## C49 -/

theorem mineq_eq {A : Type} [LinearOrder A] (a b : A) : mineq a b = min a b := by
  rw [mineq]
  split
  · next h => rw [min_eq_right h.le]
  · next h => rw [min_eq_left (not_lt.mp h)]

theorem maxeq_eq {A : Type} [LinearOrder A] (a b : A) : maxeq a b = max a b := by
  rw [maxeq]
  split
  · next h => rw [max_eq_right h.le]
  · next h => rw [max_eq_left (not_lt.mp h)]

/-- `x` is the least of these -/
def IsLeastOf {A : Type} [LinearOrder A] (x a0 : A) (args : A → Prop) : Prop :=
  (x = a0 ∨ args x) ∧ x ≤ a0 ∧ ∀ a, args a → x ≤ a

/-- serial minimum updates -/
theorem serial_min {A : Type} [LinearOrder A] (l : List (ι × Op Unit A × A)) :
    ∀ (m m' : Unit → A), (∀ e ∈ l, ∃ a, e.2.1.f = binary (mineq · a)) → Serial m l m' →
    IsLeastOf (m' ()) (m ()) (fun a => ∃ e ∈ l, e.2.1.f = binary (mineq · a)) := by
  induction l with
  | nil =>
    intro m m' _ hs
    simp only [Serial] at hs
    subst hs
    exact ⟨.inl rfl, le_rfl, by simp⟩
  | cons e l ih =>
    intro m m' he hs
    obtain ⟨b, hb⟩ := he e (by simp)
    obtain ⟨h1, h2, h3⟩ := ih _ m' (fun e' h' => he e' (by simp [h'])) hs.2
    simp only [hb, Function.update_self] at h1 h2
    rw [show (binary (mineq · b) (m ())).1 = min (m ()) b from mineq_eq _ _] at h1 h2
    have hall : ∀ a, e.2.1.f = binary (mineq · a) → min (m ()) b ≤ a := by
      intro a ha
      by_contra hlt
      rw [not_le] at hlt
      have e1 : (binary (mineq · b) (m ())).1 = (binary (mineq · a) (m ())).1 := by rw [← hb, ← ha]
      simp only [binary, mineq_eq] at e1
      have : min (m ()) a < min (m ()) b := lt_of_le_of_lt (min_le_right _ _) hlt
      exact absurd e1 this.ne'
    refine ⟨?_, h2.trans (min_le_left _ _), ?_⟩
    · rcases h1 with h1 | ⟨e', he', h1⟩
      · rcases min_choice (m ()) b with hm | hm
        · exact .inl (h1.trans hm)
        · rw [hm] at h1; exact .inr ⟨e, by simp, by rw [h1]; exact hb⟩
      · exact .inr ⟨e', by simp [he'], h1⟩
    · rintro a ⟨e', he', ha⟩
      rcases List.mem_cons.mp he' with rfl | he'
      · exact h2.trans (hall a ha)
      · exact h3 a ⟨e', he', ha⟩

end

/-- C49: concurrent minimum updates under any atomic schemes (compare-exchange strong or weak; the
library has no native minimum) leave the least of the initial value and all arguments, whatever
the number of threads and the schedule -/
theorem C49_min {ι A : Type} [DecidableEq ι] [LinearOrder A] {sc : Bool} (a0 : A)
    (args : ι → List (Scheme × A)) (hs : ∀ i, ∀ p ∈ args i, p.1 = .strong ∨ p.1 = .weak)
    {tr : List (Event ι Unit A)} {s : State ι Unit A}
    (h : Exec sc (init (fun _ => a0) fun i => (args i).map fun p => ⟨p.1, (), binary (mineq · p.2)⟩) tr s)
    (hf : Finished s) :
    (s.cur () = a0 ∨ ∃ i, ∃ p ∈ args i, s.cur () = p.2) ∧ s.cur () ≤ a0 ∧ ∀ i, ∀ p ∈ args i, s.cur () ≤ p.2 := by
  have hp : ∀ i, ∀ op ∈ (args i).map (fun p => (⟨p.1, (), binary (mineq · p.2)⟩ : Op Unit A)),
      op.scheme.atomic = true := by
    intro i op ho
    obtain ⟨p, hp, rfl⟩ := List.mem_map.mp ho
    rcases hs i p hp with h | h <;> simp [h, Scheme.atomic]
  obtain ⟨h1, _, h3⟩ := C48_mixed_schemes_partial hp h
  have h3 := h3 hf
  have hl : ∀ e ∈ commits tr, ∃ p ∈ args e.1, e.2.1.f = binary (mineq · p.2) := by
    intro e he
    have : e.2.1 ∈ opsOf e.1 (commits tr) := by
      rw [opsOf, List.mem_map]
      exact ⟨e, by simp [he], rfl⟩
    rw [h3] at this
    obtain ⟨p, hp, hpe⟩ := List.mem_map.mp this
    exact ⟨p, hp, by rw [← hpe]⟩
  obtain ⟨g1, g2, g3⟩ := serial_min (commits tr) _ _ (fun e he => by obtain ⟨p, _, h⟩ := hl e he; exact ⟨_, h⟩) h1
  refine ⟨?_, g2, ?_⟩
  · rcases g1 with g1 | ⟨e, he, g1⟩
    · exact .inl g1
    · obtain ⟨p, hp, h4⟩ := hl e he
      refine .inr ⟨e.1, p, hp, ?_⟩
      have e1 : (binary (mineq · (s.cur ())) (max (s.cur ()) p.2)).1 = (binary (mineq · p.2) (max (s.cur ()) p.2)).1 := by
        rw [← g1, ← h4]
      simpa [binary, mineq_eq] using e1
  · intro i p hp
    have : (⟨p.1, (), binary (mineq · p.2)⟩ : Op Unit A) ∈ opsOf i (commits tr) := by
      rw [h3]; exact List.mem_map.mpr ⟨p, hp, rfl⟩
    rw [opsOf, List.mem_map] at this
    obtain ⟨e, he, hop⟩ := this
    exact g3 p.2 ⟨e, List.mem_of_mem_filter he, by rw [hop]⟩

example : ∃ tr s, Exec true (init (fun _ : Unit => (5 : Int))
      (fun i : Bool => ((if i then [(Scheme.strong, 7)] else [(Scheme.weak, 3)]) : List (Scheme × Int)).map
        fun p => ⟨p.1, (), binary (mineq · p.2)⟩)) tr s ∧ s.cur () = 3 ∧ s.cur () ≤ 5 := by
  obtain ⟨tr, s, h, hf, h3⟩ := minRun
  exact ⟨tr, s, h, h3, (C49_min 5 _ (by intro i; cases i <;> simp) h hf).2.1⟩

theorem maxeq_dual {A : Type} [LinearOrder A] (a b : A) :
    maxeq a b = OrderDual.ofDual (mineq (OrderDual.toDual a) (OrderDual.toDual b)) := by
  rw [maxeq_eq, mineq_eq]
  rfl

/-- C49: likewise for the maximum -/
theorem C49_max {ι A : Type} [DecidableEq ι] [LinearOrder A] {sc : Bool} (a0 : A)
    (args : ι → List (Scheme × A)) (hs : ∀ i, ∀ p ∈ args i, p.1 = .strong ∨ p.1 = .weak)
    {tr : List (Event ι Unit A)} {s : State ι Unit A}
    (h : Exec sc (init (fun _ => a0) fun i => (args i).map fun p => ⟨p.1, (), binary (maxeq · p.2)⟩) tr s)
    (hf : Finished s) :
    (s.cur () = a0 ∨ ∃ i, ∃ p ∈ args i, s.cur () = p.2) ∧ a0 ≤ s.cur () ∧ ∀ i, ∀ p ∈ args i, p.2 ≤ s.cur () := by
  simp only [maxeq_dual] at h
  exact C49_min (A := Aᵒᵈ) a0 args hs h hf

example : ∃ tr s, Exec true (init (fun _ : Unit => (5 : Int))
      (fun i : Bool => ((if i then [(Scheme.strong, 7)] else [(Scheme.weak, 3)]) : List (Scheme × Int)).map
        fun p => ⟨p.1, (), binary (maxeq · p.2)⟩)) tr s ∧ s.cur () = 7 ∧ 5 ≤ s.cur () := by
  obtain ⟨tr, s, h, hf, h7⟩ := maxRun
  exact ⟨tr, s, h, h7, (C49_max 5 _ (by intro i; cases i <;> simp) h hf).2.1⟩

/-- C49: the stored value never increases under minimum updates, at any step of any execution -/
theorem C49_min_monotone {ι A : Type} [DecidableEq ι] [LinearOrder A] {sc : Bool} (a0 : A)
    (args : ι → List (Scheme × A)) (hs : ∀ i, ∀ p ∈ args i, p.1 = .strong ∨ p.1 = .weak)
    {tr ev : List (Event ι Unit A)} {s s' : State ι Unit A} {i : ι}
    (h : Exec sc (init (fun _ => a0) fun i => (args i).map fun p => ⟨p.1, (), binary (mineq · p.2)⟩) tr s)
    (hst : Step sc s i ev s') : s'.cur () ≤ s.cur () := by
  have hmem : ∀ op ∈ (s.thr i).todo, (op.scheme = .strong ∨ op.scheme = .weak) ∧
      ∃ a, op = ⟨op.scheme, (), binary (mineq · a)⟩ := by
    intro op ho
    obtain ⟨d, hd⟩ := exec_todo h i
    have : op ∈ (args i).map (fun p => (⟨p.1, (), binary (mineq · p.2)⟩ : Op Unit A)) := by
      rw [← hd]; exact List.mem_append_right _ ho
    obtain ⟨p, hp, rfl⟩ := List.mem_map.mp this
    exact ⟨hs i p hp, p.2, rfl⟩
  have ha := mix_inv (progs := fun i => (args i).map fun p => (⟨p.1, (), binary (mineq · p.2)⟩ : Op Unit A))
    (by
      intro i op ho
      obtain ⟨p, hp, rfl⟩ := List.mem_map.mp ho
      rcases hs i p hp with h | h <;> simp [h, Scheme.atomic]) h
  have hpc := (ha.2 i).1.2
  cases hst with
  | casOk op rest old h1 h2 =>
    obtain ⟨_, a, hop⟩ := hmem op (by rw [h1]; simp)
    subst h2
    rw [hop]
    simp [State.setThr, State.write, binary, mineq_eq]
  | fetch op rest h1 h2 =>
    obtain ⟨h5, _⟩ := hmem op (by rw [h1]; simp)
    rw [h2] at h5; simp at h5
  | unary op rest h1 h2 =>
    obtain ⟨h5, _⟩ := hmem op (by rw [h1]; simp)
    rw [h2] at h5; simp at h5
  | lockWrite op rest old h1 => rw [h1] at hpc; simp at hpc
  | serWrite op rest old h1 => rw [h1] at hpc; simp at hpc
  | _ => exact le_rfl

/-- a step from 5 to 3 -/
example : ∃ (s s' : State Bool Unit Int), s.cur () = 5 ∧ s'.cur () = 3 ∧ s'.cur () ≤ s.cur () := by
  have h : Exec true (init (fun _ : Unit => (5 : Int)) (fun _ : Bool => ([(Scheme.weak, 3)] : List (Scheme × Int)).map
      fun p => ⟨p.1, (), binary (mineq · p.2)⟩)) _ _ :=
    .snoc true .nil (.load ⟨.weak, (), binary (mineq · 3)⟩ [] 5 rfl (.inr rfl) (.inl rfl))
  exact ⟨_, _, rfl, rfl, C49_min_monotone (i := true) 5 (fun _ => [(.weak, 3)]) (by simp) h
    (.casOk ⟨.weak, (), binary (mineq · 3)⟩ [] 5 rfl rfl)⟩

/-- C49: and never decreases under maximum updates -/
theorem C49_max_monotone {ι A : Type} [DecidableEq ι] [LinearOrder A] {sc : Bool} (a0 : A)
    (args : ι → List (Scheme × A)) (hs : ∀ i, ∀ p ∈ args i, p.1 = .strong ∨ p.1 = .weak)
    {tr ev : List (Event ι Unit A)} {s s' : State ι Unit A} {i : ι}
    (h : Exec sc (init (fun _ => a0) fun i => (args i).map fun p => ⟨p.1, (), binary (maxeq · p.2)⟩) tr s)
    (hst : Step sc s i ev s') : s.cur () ≤ s'.cur () := by
  simp only [maxeq_dual] at h
  exact C49_min_monotone (A := Aᵒᵈ) a0 args hs h hst

/-- a step from 5 to 7 -/
example : ∃ (s s' : State Bool Unit Int), s.cur () = 5 ∧ s'.cur () = 7 ∧ s.cur () ≤ s'.cur () := by
  have h : Exec true (init (fun _ : Unit => (5 : Int)) (fun _ : Bool => ([(Scheme.weak, 7)] : List (Scheme × Int)).map
      fun p => ⟨p.1, (), binary (maxeq · p.2)⟩)) _ _ :=
    .snoc true .nil (.load ⟨.weak, (), binary (maxeq · 7)⟩ [] 5 rfl (.inr rfl) (.inl rfl))
  exact ⟨_, _, rfl, rfl, C49_max_monotone (i := true) 5 (fun _ => [(.weak, 7)]) (by simp) h
    (.casOk ⟨.weak, (), binary (maxeq · 7)⟩ [] 5 rfl rfl)⟩

/-! ## concrete executions meeting the hypotheses -/

end Verif.Atomics
