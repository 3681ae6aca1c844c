import Verif.Atomics.Runs
import Mathlib.Algebra.BigOperators.Group.Finset.Basic
import Mathlib.Algebra.BigOperators.Group.Finset.Piecewise
import Mathlib.Data.Fintype.Basic
import Mathlib.Data.Fintype.Card
import Mathlib.Algebra.Order.BigOperators.Group.Finset
import Mathlib.Tactic.Linarith
import Mathlib.Tactic.FinCases
import Mathlib.Data.Int.Order.Basic

/-!
# C44 - C49: atomicity of concurrent updates
-/

namespace Verif.Atomics

section
variable {ι V T : Type} [DecidableEq ι] [DecidableEq V]

/-! ## programs that use only atomic read-modify-write schemes -/

/-- the schemes whose update is one atomic access -/
def Scheme.atomic : Scheme → Bool
  | .strong | .weak | .native | .unary => true
  | .lock | .serial => false

/-- what is still to take effect -/
def pending (t : Thread V T) : List (Op V T) :=
  match t.pc with
  | .fetched => t.todo.tail
  | _ => t.todo

/-- thread states reachable with atomic schemes -/
def AtomicThread (t : Thread V T) : Prop :=
  (∀ op ∈ t.todo, op.scheme.atomic = true) ∧
  (t.pc = .idle ∨ (∃ old, t.pc = .loaded old) ∨ (t.pc = .fetched ∧ t.todo ≠ []))

theorem mix_inv {sc : Bool} {m0 : V → T} {progs : ι → List (Op V T)} {tr : List (Event ι V T)} {s : State ι V T}
    (hp : ∀ i, ∀ op ∈ progs i, op.scheme.atomic = true) (h : Exec sc (init m0 progs) tr s) :
    Serial m0 (commits tr) s.cur ∧
    ∀ i, AtomicThread (s.thr i) ∧ opsOf i (commits tr) ++ pending (s.thr i) = progs i := by
  induction h with
  | nil =>
    refine ⟨rfl, fun i => ⟨⟨fun op ho => hp i op ho, .inl rfl⟩, by simp [commits, opsOf, pending, init]⟩⟩
  | @snoc tr s1 s2 ev j _ hst ih =>
    obtain ⟨ihs, iht⟩ := ih
    obtain ⟨⟨hsch, hpc⟩, hops⟩ := iht j
    have hframe := step_frame hst
    have hothers : ∀ i, i ≠ j → AtomicThread (s2.thr i) ∧
        opsOf i (commits (tr ++ ev)) ++ pending (s2.thr i) = progs i := by
      intro i hi
      have hc : opsOf i (commits ev) = [] := by
        have : ∀ (l : List (Event ι V T)), (∀ e ∈ l, e.who = j) → opsOf i (commits l) = [] := by
          intro l hl
          induction l with
          | nil => rfl
          | cons e l ihl =>
            have ht := ihl fun e he => hl e (by simp [he])
            cases e with
            | commit k op r =>
              have hk : k = j := hl (.commit k op r) (by simp)
              have hne : ¬ k = i := fun e => hi (e.symm.trans hk)
              rw [commits]
              simpa [opsOf, hne] using ht
            | _ => simpa [commits] using ht
        exact this ev hframe.2
      rw [hframe.1 i hi, commits_append, opsOf_append, hc, List.append_nil]
      exact iht i
    cases hst with
    | load op rest x h1 h2 h3 =>
      refine ⟨by simpa [commits_append, commits, State.setThr] using ihs, fun i => ?_⟩
      by_cases hi : i = j
      · subst hi
        rw [h1] at hsch hops
        refine ⟨⟨by simpa [State.setThr] using hsch, .inr (.inl ⟨x, by simp [State.setThr]⟩)⟩, ?_⟩
        simpa [commits_append, commits, pending, State.setThr] using hops
      · exact hothers i hi
    | casOk op rest old h1 h2 =>
      subst h2
      refine ⟨?_, fun i => ?_⟩
      · rw [commits_append]
        exact serial_snoc ihs j op
      · by_cases hi : i = j
        · subst hi
          rw [h1] at hsch hops
          refine ⟨⟨by simpa [State.setThr] using fun op ho => hsch op (by simp [ho]), .inl (by simp [State.setThr])⟩, ?_⟩
          simpa [commits_append, commits, pending, State.setThr, opsOf_append, opsOf_single] using hops
        · exact hothers i hi
    | casFail op rest old x h1 h2 h3 =>
      refine ⟨by simpa [commits_append, commits, State.setThr] using ihs, fun i => ?_⟩
      by_cases hi : i = j
      · subst hi
        rw [h1] at hsch hops
        refine ⟨⟨by simpa [State.setThr] using hsch, .inr (.inl ⟨x, by simp [State.setThr]⟩)⟩, ?_⟩
        simpa [commits_append, commits, pending, State.setThr] using hops
      · exact hothers i hi
    | fetch op rest h1 h2 =>
      refine ⟨?_, fun i => ?_⟩
      · rw [commits_append]
        exact serial_snoc ihs j op
      · by_cases hi : i = j
        · subst hi
          rw [h1] at hsch hops
          refine ⟨⟨by simpa [State.setThr] using hsch, .inr (.inr ⟨by simp [State.setThr], by simp [State.setThr]⟩)⟩, ?_⟩
          simpa [commits_append, commits, pending, State.setThr, opsOf_append, opsOf_single] using hops
        · exact hothers i hi
    | reload op rest x h1 h2 =>
      refine ⟨by simpa [commits_append, commits, State.setThr] using ihs, fun i => ?_⟩
      by_cases hi : i = j
      · subst hi
        rw [h1] at hsch hops
        refine ⟨⟨by simpa [State.setThr] using fun op ho => hsch op (by simp [ho]), .inl (by simp [State.setThr])⟩, ?_⟩
        simpa [commits_append, commits, pending, State.setThr] using hops
      · exact hothers i hi
    | unary op rest h1 h2 =>
      refine ⟨?_, fun i => ?_⟩
      · rw [commits_append]
        exact serial_snoc ihs j op
      · by_cases hi : i = j
        · subst hi
          rw [h1] at hsch hops
          refine ⟨⟨by simpa [State.setThr] using fun op ho => hsch op (by simp [ho]), .inl (by simp [State.setThr])⟩, ?_⟩
          simpa [commits_append, commits, pending, State.setThr, opsOf_append, opsOf_single] using hops
        · exact hothers i hi
    | acquire op rest h1 h2 h3 =>
      have := hsch op (by rw [h1]; simp)
      rw [h2] at this
      simp [Scheme.atomic] at this
    | lockRead op rest h1 => rw [h1] at hpc; simp at hpc
    | lockWrite op rest old h1 => rw [h1] at hpc; simp at hpc
    | release op rest r h1 => rw [h1] at hpc; simp at hpc
    | serRead op rest h1 h2 =>
      have := hsch op (by rw [h1]; simp)
      rw [h2] at this
      simp [Scheme.atomic] at this
    | serWrite op rest old h1 => rw [h1] at hpc; simp at hpc

/-- C48 as far as it holds: threads may mix the compare-exchange, native and increment schemes
freely on the same variables, under any memory order: memory is always the result of the updates
executed one at a time, each thread's in program order, none lost and none applied twice.
(Missing: the lock and serial schemes, see `C48_lock_mixed_fails`, and operands of another type,
see `C48_mixed_types_fails`.) -/
theorem C48_mixed_schemes_partial {sc : Bool} {m0 : V → T} {progs : ι → List (Op V T)} {tr : List (Event ι V T)}
    {s : State ι V T} (hp : ∀ i, ∀ op ∈ progs i, op.scheme.atomic = true) (h : Exec sc (init m0 progs) tr s) :
    Serial m0 (commits tr) s.cur ∧ (∀ i, ∃ rest, opsOf i (commits tr) ++ rest = progs i) ∧
    (Finished s → ∀ i, opsOf i (commits tr) = progs i) := by
  obtain ⟨h1, h2⟩ := mix_inv hp h
  refine ⟨h1, fun i => ⟨_, (h2 i).2⟩, fun hf i => ?_⟩
  have h3 := (h2 i).2
  have : pending (s.thr i) = [] := by
    unfold pending
    split
    · simp [hf i]
    · exact hf i
  rwa [this, List.append_nil] at h3

example : ∃ tr s, Exec true (init (fun _ : Unit => (0 : Int))
      (two ⟨.strong, (), binary (· + 1)⟩ ⟨.weak, (), binary (· + 10)⟩)) tr s ∧
      Serial (fun _ => 0) (commits tr) s.cur ∧ s.cur () = 11 := by
  obtain ⟨tr, s, h, -, h11, -⟩ := casRun
  exact ⟨tr, s, h, (C48_mixed_schemes_partial (by intro i; cases i <;> simp [two, Scheme.atomic]) h).1, h11⟩

/-! ## C44 -/

/-- what a thread in the middle of a call has emitted for it -/
inductive InCall (i : ι) : Thread V T → List (Event ι V T) → Prop
  | idle {todo : List (Op V T)} : InCall i ⟨todo, .idle⟩ []
  | loaded {op : Op V T} {rest : List (Op V T)} {old : T} (k : Nat) :
      InCall i ⟨op :: rest, .loaded old⟩ (.invoke i :: List.replicate k (.fail i))
  | locked {op : Op V T} {rest : List (Op V T)} : InCall i ⟨op :: rest, .locked⟩ [.invoke i]
  | lockRead {op : Op V T} {rest : List (Op V T)} {old : T} : InCall i ⟨op :: rest, .lockRead old⟩ [.invoke i]
  | lockWrote {op : Op V T} {rest : List (Op V T)} {r : T} :
      InCall i ⟨op :: rest, .lockWrote r⟩ [.invoke i, .commit i op r]
  | serRead {op : Op V T} {rest : List (Op V T)} {old : T} : InCall i ⟨op :: rest, .serRead old⟩ [.invoke i]

/-- under every scheme but the native one, each thread's events are complete calls in program
order, followed by the beginning of at most one more -/
theorem calls_inv {sc : Bool} {m0 : V → T} {progs : ι → List (Op V T)} {tr : List (Event ι V T)} {s : State ι V T}
    (hp : ∀ i, ∀ op ∈ progs i, op.scheme ≠ .native) (h : Exec sc (init m0 progs) tr s) (i : ι) :
    ∃ done calls part, done ++ (s.thr i).todo = progs i ∧ Calls i done calls ∧ InCall i (s.thr i) part ∧
      proj i tr = calls ++ part := by
  induction h with
  | nil => exact ⟨[], [], [], rfl, .nil, .idle, rfl⟩
  | @snoc tr s1 s2 ev j _ hst ih =>
    obtain ⟨done, calls, part, hd, hc, hin, hpr⟩ := ih
    have hframe := step_frame hst
    by_cases hi : i = j
    case neg =>
      refine ⟨done, calls, part, ?_, hc, ?_, ?_⟩
      · rw [hframe.1 i hi]; exact hd
      · rw [hframe.1 i hi]; exact hin
      · rw [proj_append, proj_other hframe.2 hi, List.append_nil, hpr]
    subst hi
    rw [proj_append, proj_own hframe.2, hpr]
    cases hst with
    | load op rest x h1 h2 h3 =>
      rw [h1] at hd hin
      cases hin
      refine ⟨done, calls, [.invoke i], by simpa [State.setThr] using hd, hc, ?_, by simp⟩
      rw [State.setThr]; simpa using InCall.loaded (i := i) (op := op) (rest := rest) (old := x) 0
    | casOk op rest old h1 h2 =>
      rw [h1] at hd hin
      cases hin with
      | loaded k =>
      refine ⟨done ++ [op], _, [], by simpa [State.setThr] using hd, hc.snoc op (op.f old).2 k, ?_, ?_⟩
      · rw [State.setThr]; simpa using InCall.idle
      · simp
    | casFail op rest old x h1 h2 h3 =>
      rw [h1] at hd hin
      cases hin with
      | loaded k =>
      refine ⟨done, calls, .invoke i :: List.replicate (k + 1) (.fail i), by simpa [State.setThr] using hd, hc, ?_, ?_⟩
      · rw [State.setThr]; simpa using InCall.loaded (i := i) (op := op) (rest := rest) (old := x) (k + 1)
      · simp [List.replicate_succ']
    | fetch op rest h1 h2 =>
      rw [h1] at hd
      exact absurd h2 (hp i op (by rw [← hd]; simp))
    | reload op rest x h1 h2 =>
      rw [h1] at hin
      cases hin
    | unary op rest h1 h2 =>
      rw [h1] at hd hin
      cases hin
      refine ⟨done ++ [op], _, [], by simpa [State.setThr] using hd,
        hc.snoc op (op.f (s1.cur op.var)).2 0, ?_, ?_⟩
      · rw [State.setThr]; simpa using InCall.idle
      · simp
    | acquire op rest h1 h2 h3 =>
      rw [h1] at hd hin
      cases hin
      refine ⟨done, calls, [.invoke i], by simpa [State.setThr] using hd, hc, ?_, by simp⟩
      rw [State.setThr]; simpa using InCall.locked
    | lockRead op rest h1 =>
      rw [h1] at hd hin
      cases hin
      refine ⟨done, calls, [.invoke i], by simpa [State.setThr] using hd, hc, ?_, by simp⟩
      rw [State.setThr]; simpa using InCall.lockRead
    | lockWrite op rest old h1 =>
      rw [h1] at hd hin
      cases hin
      refine ⟨done, calls, [.invoke i, .commit i op (op.f old).2], by simpa [State.setThr] using hd, hc, ?_, by simp⟩
      rw [State.setThr]; simpa using InCall.lockWrote
    | release op rest r h1 =>
      rw [h1] at hd hin
      cases hin
      refine ⟨done ++ [op], _, [], by simpa [State.setThr] using hd, hc.snoc op r 0, ?_, ?_⟩
      · rw [State.setThr]; simpa using InCall.idle
      · simp
    | serRead op rest h1 h2 =>
      rw [h1] at hd hin
      cases hin
      refine ⟨done, calls, [.invoke i], by simpa [State.setThr] using hd, hc, ?_, by simp⟩
      rw [State.setThr]; simpa using InCall.serRead
    | serWrite op rest old h1 =>
      rw [h1] at hd hin
      cases hin
      refine ⟨done ++ [op], _, [], by simpa [State.setThr] using hd, hc.snoc op (op.f old).2 0, ?_, ?_⟩
      · rw [State.setThr]; simpa using InCall.idle
      · simp

/-- C44: updates under the strong and weak schemes (and `++`/`--` under the native one) are
linearizable, for any number of threads, any programs, any schedule, any spurious failures and
any memory order.  In every execution:
* memory is the result of the updates executed one at a time in the order in which they took
  effect, and each operation's result is the one of that serial execution;
* every thread's events are complete calls of its program, in order, each beginning, taking
  effect exactly once and then returning the value of its own effect; plus at most one call
  that has begun and not yet taken effect.
Since an update takes effect between its beginning and its return, the serial order respects
real time. -/
theorem C44_linearizable {sc : Bool} {m0 : V → T} {progs : ι → List (Op V T)} {tr : List (Event ι V T)}
    {s : State ι V T} (hp : ∀ i, ∀ op ∈ progs i, op.scheme = .strong ∨ op.scheme = .weak ∨ op.scheme = .unary)
    (h : Exec sc (init m0 progs) tr s) :
    Serial m0 (commits tr) s.cur ∧
    ∀ i, ∃ done calls part, done ++ (s.thr i).todo = progs i ∧ Calls i done calls ∧ proj i tr = calls ++ part ∧
      opsOf i (commits tr) = done ∧ (part = [] ∨ ∃ k, part = .invoke i :: List.replicate k (.fail i)) := by
  have ha : ∀ i, ∀ op ∈ progs i, op.scheme.atomic = true := by
    intro i op ho
    rcases hp i op ho with h | h | h <;> simp [h, Scheme.atomic]
  have hn : ∀ i, ∀ op ∈ progs i, op.scheme ≠ .native := by
    intro i op ho
    rcases hp i op ho with h | h | h <;> simp [h]
  obtain ⟨h1, h2⟩ := mix_inv ha h
  refine ⟨h1, fun i => ?_⟩
  obtain ⟨done, calls, part, hd, hc, hin, hpr⟩ := calls_inv hn h i
  have hat := (h2 i).1.2
  have hpe := (h2 i).2
  refine ⟨done, calls, part, hd, hc, hpr, ?_, ?_⟩
  · have : pending (s.thr i) = (s.thr i).todo := by
      unfold pending
      split
      · next hf =>
        exfalso
        generalize s.thr i = t at hin hf
        cases hin <;> simp at hf
      · rfl
    rw [this, ← hd] at hpe
    exact List.append_cancel_right hpe
  · generalize s.thr i = t at hin hat
    cases hin with
    | idle => exact .inl rfl
    | loaded k => exact .inr ⟨k, rfl⟩
    | locked => simp at hat
    | lockRead => simp at hat
    | lockWrote => simp at hat
    | serRead => simp at hat

example : ∃ tr s, Exec true (init (fun _ : Unit => (0 : Int))
      (two ⟨.strong, (), binary (· + 1)⟩ ⟨.weak, (), binary (· + 10)⟩)) tr s ∧ Event.fail true ∈ tr ∧
      Serial (fun _ => 0) (commits tr) s.cur := by
  obtain ⟨tr, s, h, -, -, hf⟩ := casRun
  exact ⟨tr, s, h, hf, (C44_linearizable (by intro i; cases i <;> simp [two]) h).1⟩

/-- C44: nothing is lost: when all threads have finished, the updates that took effect are
exactly those of all programs, each once -/
theorem C44_all_applied {sc : Bool} {m0 : V → T} {progs : ι → List (Op V T)} {tr : List (Event ι V T)}
    {s : State ι V T} (hp : ∀ i, ∀ op ∈ progs i, op.scheme = .strong ∨ op.scheme = .weak ∨ op.scheme = .unary)
    (h : Exec sc (init m0 progs) tr s) (hf : Finished s) :
    Serial m0 (commits tr) s.cur ∧ ∀ i, opsOf i (commits tr) = progs i := by
  have ha : ∀ i, ∀ op ∈ progs i, op.scheme.atomic = true := by
    intro i op ho
    rcases hp i op ho with h | h | h <;> simp [h, Scheme.atomic]
  have := C48_mixed_schemes_partial ha h
  exact ⟨this.1, this.2.2 hf⟩

omit [DecidableEq V] in
example : ∃ tr s, Exec true (init (fun _ : Unit => (0 : Int))
      (two ⟨.strong, (), binary (· + 1)⟩ ⟨.weak, (), binary (· + 10)⟩)) tr s ∧ Event.fail true ∈ tr ∧
      opsOf true (commits tr) = [⟨.strong, (), binary (· + 1)⟩] := by
  obtain ⟨tr, s, h, hf, -, hfail⟩ := casRun
  exact ⟨tr, s, h, hfail, (C44_all_applied (by intro i; cases i <;> simp [two]) h hf).2 true⟩

theorem sum_by_thread {M : Type} [AddCommMonoid M] [Fintype ι] (l : List (ι × Op V T × T)) (g : Op V T → M) :
    (l.map fun e => g e.2.1).sum = ∑ i, ((opsOf i l).map g).sum := by
  induction l with
  | nil => simp [opsOf]
  | cons e l ih =>
    have : ∀ i, opsOf i (e :: l) = if e.1 = i then e.2.1 :: opsOf i l else opsOf i l := by
      intro i
      by_cases h : e.1 = i <;> simp [opsOf, h]
    simp only [this, List.map_cons, List.sum_cons, ih]
    have h2 : ∀ i, ((if e.1 = i then e.2.1 :: opsOf i l else opsOf i l).map g).sum =
        (if e.1 = i then g e.2.1 else 0) + ((opsOf i l).map g).sum := by
      intro i
      by_cases h : e.1 = i <;> simp [h]
    simp only [h2, Finset.sum_add_distrib]
    rw [Finset.sum_ite_eq Finset.univ e.1 (fun _ => g e.2.1)]
    simp

/-- C44, a consequence users rely on: concurrent additions from any number of threads add up -/
theorem C44_counter {A : Type} [AddCommGroup A] [Fintype ι] {sc : Bool} (a0 : A) (amounts : ι → List (Scheme × A))
    (hs : ∀ i, ∀ p ∈ amounts i, p.1.atomic = true) {tr : List (Event ι Unit A)} {s : State ι Unit A}
    (h : Exec sc (init (fun _ => a0) fun i => (amounts i).map fun p => ⟨p.1, (), binary (· + p.2)⟩) tr s)
    (hf : Finished s) : s.cur () = a0 + ∑ i, ((amounts i).map (·.2)).sum := by
  have hp : ∀ i, ∀ op ∈ (amounts i).map (fun p => (⟨p.1, (), binary (· + p.2)⟩ : Op Unit A)),
      op.scheme.atomic = true := by
    intro i op ho
    obtain ⟨p, hp, rfl⟩ := List.mem_map.mp ho
    exact hs i p hp
  obtain ⟨h1, _, h3⟩ := C48_mixed_schemes_partial hp h
  have h3 := h3 hf
  have key : ∀ (l : List (ι × Op Unit A × A)) (m m' : Unit → A),
      (∀ e ∈ l, ∃ a : A, e.2.1.f = binary (· + a)) → Serial m l m' →
      m' () = m () + (l.map fun e => (e.2.1.f 0).1).sum := by
    intro l
    induction l with
    | nil => intro m m' _ hs; simp only [Serial] at hs; simp [hs]
    | cons e l ih =>
      intro m m' he hs
      obtain ⟨a, ha⟩ := he e (by simp)
      have := ih _ m' (fun e' h' => he e' (by simp [h'])) hs.2
      rw [this]
      simp [ha, binary, add_assoc]
  have hl : ∀ e ∈ commits tr, ∃ a : A, e.2.1.f = binary (· + a) := by
    intro e he
    have : e.2.1 ∈ opsOf e.1 (commits tr) := by
      rw [opsOf, List.mem_map]
      exact ⟨e, by simp [he], rfl⟩
    rw [h3] at this
    obtain ⟨p, _, hpe⟩ := List.mem_map.mp this
    exact ⟨p.2, by rw [← hpe]⟩
  rw [key _ _ _ hl h1, sum_by_thread (commits tr) (fun op => (op.f 0).1)]
  congr 1
  apply Finset.sum_congr rfl
  intro i _
  rw [h3 i, List.map_map]
  congr 1
  apply List.map_congr_left
  intro p _
  simp [binary]

/-- two threads adding 7 and 3 to 5 -/
example : ∃ tr s, Exec true (init (fun _ : Unit => (5 : Int))
      (fun i : Bool => ((if i then [(Scheme.unary, 7)] else [(Scheme.weak, 3)]) : List (Scheme × Int)).map
        fun p => ⟨p.1, (), binary (· + p.2)⟩)) tr s ∧ s.cur () = 5 + (7 + 3) := by
  obtain ⟨tr, s, h, hf, -⟩ := sumRun
  refine ⟨tr, s, h, (C44_counter 5 _ (by intro i; cases i <;> simp [Scheme.atomic]) h hf).trans (by simp)⟩

/-- C44 for the punned schemes: running the loop on integers with the same bits gives, on the
decoded values, a serial execution of the original operations -/
theorem C44_pun {P : Type} {sc : Bool} {m0 : V → T} {progs : ι → List (Op V T)} (enc : T → P) (dec : P → T)
    (hed : ∀ t, dec (enc t) = t)
    (hp : ∀ i, ∀ op ∈ progs i, op.scheme = .strong ∨ op.scheme = .weak) {tr : List (Event ι V P)} {s : State ι V P}
    (h : Exec sc (init (fun v => enc (m0 v)) fun i => (progs i).map (punOp enc dec)) tr s) (hf : Finished s) :
    ∃ order : List (ι × Op V T × T), Serial m0 order (fun v => dec (s.cur v)) ∧ ∀ i, opsOf i order = progs i := by
  have ha : ∀ i, ∀ op ∈ (progs i).map (punOp enc dec), op.scheme.atomic = true := by
    intro i op ho
    obtain ⟨q, hq, rfl⟩ := List.mem_map.mp ho
    rcases hp i q hq with h | h <;> simp [punOp, h, Scheme.atomic]
  obtain ⟨h1, h2, h3⟩ := C48_mixed_schemes_partial ha h
  have h3 := h3 hf
  -- rebuild the original operations thread by thread
  have key : ∀ (l : List (ι × Op V P × P)) (m : V → T) (m' : V → P) (ps : ι → List (Op V T)),
      (∀ i, opsOf i l = (ps i).map (punOp enc dec)) → Serial (fun v => enc (m v)) l m' →
      ∃ order : List (ι × Op V T × T), Serial m order (fun v => dec (m' v)) ∧ ∀ i, opsOf i order = ps i := by
    intro l
    induction l with
    | nil =>
      intro m m' ps hps hs
      refine ⟨[], ?_, fun i => ?_⟩
      · simp only [Serial] at hs ⊢
        rw [hs]; funext v; exact hed _
      · have := hps i
        simp only [opsOf, List.filter_nil, List.map_nil] at this
        rw [eq_comm, List.map_eq_nil_iff] at this
        rw [this]; rfl
    | cons e l ih =>
      intro m m' ps hps hs
      obtain ⟨j, q, r⟩ := e
      have hj := hps j
      have hcons : opsOf j ((j, q, r) :: l) = q :: opsOf j l := by simp [opsOf]
      rw [hcons] at hj
      cases hpj : ps j with
      | nil => rw [hpj] at hj; simp at hj
      | cons op rest =>
        rw [hpj, List.map_cons] at hj
        obtain ⟨hq, hrest⟩ := List.cons.inj hj
        subst hq
        obtain ⟨order, ho1, ho2⟩ := ih (Function.update m op.var (op.f (m op.var)).1) m'
          (Function.update ps j rest) (by
            intro i
            by_cases hi : i = j
            · subst hi; simpa using hrest
            · rw [Function.update_of_ne hi, ← hps i]
              have : ¬ j = i := fun e => hi e.symm
              simp [opsOf, this]) (by
            have := hs.2
            simp only [punOp, hed] at this
            convert this using 1
            funext v
            by_cases hv : v = op.var
            · subst hv; simp
            · simp [hv])
        refine ⟨(j, op, (op.f (m op.var)).2) :: order, ⟨rfl, ho1⟩, fun i => ?_⟩
        by_cases hi : i = j
        · subst hi
          have := ho2 i
          simp only [Function.update_self] at this
          simp only [opsOf, decide_true, List.filter_cons_of_pos, List.map_cons] at this ⊢
          rw [this, hpj]
        · have h4 := ho2 i
          rw [Function.update_of_ne hi] at h4
          have h5 : ¬ j = i := fun e => hi e.symm
          simpa [opsOf, h5] using h4
  exact key (commits tr) m0 s.cur progs h3 h1

/-- values stored as their negatives -/
example : ∃ (tr : List (Event Bool Unit Int)) (s : State Bool Unit Int) (order : List (Bool × Op Unit Int × Int)),
    Exec true (init (fun _ => -0) fun i => ((two ⟨.strong, (), binary (· + 1)⟩ ⟨.weak, (), binary (· + 10)⟩) i).map
      (punOp (fun t => -t) (fun p => -p))) tr s ∧ Serial (fun _ => (0 : Int)) order (fun v => -(s.cur v)) := by
  have h : ∃ (tr : List (Event Bool Unit Int)) (s : State Bool Unit Int), Exec true (init (fun _ => -0) fun i =>
      ((two ⟨.strong, (), binary (· + 1)⟩ ⟨.weak, (), binary (· + 10)⟩) i).map
      (punOp (fun t : Int => -t) (fun p => -p))) tr s ∧ Finished s := by
    refine ⟨_, _, .snoc true (.snoc true (.snoc false (.snoc false .nil
      (.load (punOp (fun t => -t) (fun p => -p) ⟨.weak, (), binary (· + 10)⟩) [] 0 rfl (.inr rfl) (.inl rfl)))
      (.casOk (punOp (fun t => -t) (fun p => -p) ⟨.weak, (), binary (· + 10)⟩) [] 0 rfl rfl))
      (.load (punOp (fun t => -t) (fun p => -p) ⟨.strong, (), binary (· + 1)⟩) [] (-10) rfl (.inl rfl) (.inl rfl)))
      (.casOk (punOp (fun t => -t) (fun p => -p) ⟨.strong, (), binary (· + 1)⟩) [] (-10) rfl rfl), ?_⟩
    intro i; cases i <;> rfl
  obtain ⟨tr, s, h, hf⟩ := h
  obtain ⟨order, ho, -⟩ := C44_pun (m0 := fun _ : Unit => (0 : Int)) (fun t => -t) (fun p => -p) (by simp)
    (by intro i; cases i <;> simp [two]) h hf
  exact ⟨tr, s, order, h, ho⟩

/-! ## C45 -/

/-- failed attempts of `i`, and updates of other threads, in a trace -/
def failsOf (i : ι) (tr : List (Event ι V T)) : Nat :=
  tr.countP fun e => match e with | .fail j => decide (j = i) | _ => false
/-- updates of other threads in a trace -/
def commitsOfOthers (i : ι) (tr : List (Event ι V T)) : Nat :=
  tr.countP fun e => match e with | .commit j _ _ => decide (j ≠ i) | _ => false

/-- the thread's `old` is no longer the value of its variable -/
def Stale (s : State ι V T) (i : ι) : Prop :=
  ∃ op rest old, s.thr i = ⟨op :: rest, .loaded old⟩ ∧ s.cur op.var ≠ old

/-- a step removes calls from its own program only -/
theorem step_todo {sc : Bool} {s s' : State ι V T} {j : ι} {ev : List (Event ι V T)} (h : Step sc s j ev s') (k : ι) :
    ∃ d, d ++ (s'.thr k).todo = (s.thr k).todo := by
  by_cases hk : k = j
  · subst hk
    cases h with
    | load op rest x h1 h2 h3 => exact ⟨[], by simp [State.setThr, h1]⟩
    | casOk op rest old h1 h2 => exact ⟨[op], by simp [State.setThr, h1]⟩
    | casFail op rest old x h1 h2 h3 => exact ⟨[], by simp [State.setThr, h1]⟩
    | fetch op rest h1 h2 => exact ⟨[], by simp [State.setThr, h1]⟩
    | reload op rest x h1 h2 => exact ⟨[op], by simp [State.setThr, h1]⟩
    | unary op rest h1 h2 => exact ⟨[op], by simp [State.setThr, h1]⟩
    | acquire op rest h1 h2 h3 => exact ⟨[], by simp [State.setThr, h1]⟩
    | lockRead op rest h1 => exact ⟨[], by simp [State.setThr, h1]⟩
    | lockWrite op rest old h1 => exact ⟨[], by simp [State.setThr, h1]⟩
    | release op rest r h1 => exact ⟨[op], by simp [State.setThr, h1]⟩
    | serRead op rest h1 h2 => exact ⟨[], by simp [State.setThr, h1]⟩
    | serWrite op rest old h1 => exact ⟨[op], by simp [State.setThr, h1]⟩
  · exact ⟨[], by simp [(step_frame h).1 k hk]⟩

theorem exec_todo {sc : Bool} {m0 : V → T} {progs : ι → List (Op V T)} {tr : List (Event ι V T)} {s : State ι V T}
    (h : Exec sc (init m0 progs) tr s) (k : ι) : ∃ d, d ++ (s.thr k).todo = progs k := by
  induction h with
  | nil => exact ⟨[], rfl⟩
  | snoc j _ hst ih =>
    obtain ⟨d, hd⟩ := ih
    obtain ⟨d', hd'⟩ := step_todo hst k
    exact ⟨d ++ d', by rw [List.append_assoc, hd', hd]⟩

/-- memory changes only when an update takes effect -/
theorem step_cur {sc : Bool} {s s' : State ι V T} {j : ι} {ev : List (Event ι V T)} (h : Step sc s j ev s') :
    s'.cur = s.cur ∨ (commits ev).length = 1 := by
  cases h <;> simp [State.setThr, State.write, commits]

omit [DecidableEq V] in
theorem commitsOfOthers_of_others {i j : ι} (hij : i ≠ j) {ev : List (Event ι V T)} (h : ∀ e ∈ ev, e.who = j) :
    commitsOfOthers i ev = (commits ev).length ∧ failsOf i ev = 0 := by
  induction ev with
  | nil => simp [commitsOfOthers, failsOf, commits]
  | cons e ev ih =>
    have ih2 := ih fun e he => h e (by simp [he])
    have he := h e (by simp)
    cases e with
    | invoke k => simpa [commitsOfOthers, failsOf, commits] using ih2
    | fail k =>
      have : k = j := he
      subst this
      simpa [commitsOfOthers, failsOf, commits, hij.symm] using ih2
    | commit k op r =>
      have : k = j := he
      subst this
      simpa [commitsOfOthers, failsOf, commits, hij.symm] using ih2
    | ret k r => simpa [commitsOfOthers, failsOf, commits] using ih2

theorem loaded_scheme {sc : Bool} {m0 : V → T} {progs : ι → List (Op V T)} {tr : List (Event ι V T)} {s : State ι V T}
    (h : Exec sc (init m0 progs) tr s) (i : ι) :
    ∀ op rest old, s.thr i = ⟨op :: rest, .loaded old⟩ → op.scheme = .strong ∨ op.scheme = .weak := by
  induction h with
  | nil => intro op rest old h; simp [init] at h
  | @snoc tr s1 s2 ev j _ hst ih =>
    by_cases hi : i = j
    · subst hi
      intro op' rest' old'
      cases hst with
      | load op rest x h1 h2 h3 =>
        simp only [State.setThr, Function.update_self, Thread.mk.injEq, List.cons.injEq, Pc.loaded.injEq]
        rintro ⟨⟨rfl, rfl⟩, rfl⟩
        exact h2
      | casFail op rest old x h1 h2 h3 =>
        simp only [State.setThr, Function.update_self, Thread.mk.injEq, List.cons.injEq, Pc.loaded.injEq]
        rintro ⟨⟨rfl, rfl⟩, rfl⟩
        exact ih _ _ _ h1
      | _ => simp [State.setThr]
    · rw [(step_frame hst).1 i hi]; exact ih

theorem lockfree_inv {m0 : V → T} {progs : ι → List (Op V T)} {tr : List (Event ι V T)} {s : State ι V T}
    {i : ι} (hp : ∀ op ∈ progs i, op.scheme ≠ .weak) (h : Exec true (init m0 progs) tr s) :
    failsOf i tr ≤ commitsOfOthers i tr ∧ (Stale s i → failsOf i tr + 1 ≤ commitsOfOthers i tr) := by
  induction h with
  | nil =>
    refine ⟨by simp [failsOf, commitsOfOthers], ?_⟩
    rintro ⟨op, rest, old, h, _⟩; simp [init] at h
  | @snoc tr s1 s2 ev j hex hst ih =>
    obtain ⟨hle, hstale⟩ := ih
    have hframe := step_frame hst
    have happ : failsOf i (tr ++ ev) = failsOf i tr + failsOf i ev ∧
        commitsOfOthers i (tr ++ ev) = commitsOfOthers i tr + commitsOfOthers i ev := by
      simp [failsOf, commitsOfOthers]
    rw [happ.1, happ.2]
    by_cases hi : i = j
    · subst hi
      cases hst with
      | load op rest x h1 h2 h3 =>
        refine ⟨by simpa [failsOf, commitsOfOthers] using hle, ?_⟩
        rintro ⟨op', rest', old', he, hne⟩
        simp only [State.setThr, Function.update_self, Thread.mk.injEq, List.cons.injEq, Pc.loaded.injEq] at he
        obtain ⟨⟨rfl, rfl⟩, rfl⟩ := he
        rcases h3 with h3 | h3
        · exact absurd h3.symm hne
        · simp at h3
      | casFail op rest old x h1 h2 h3 =>
        have hx : x = s1.cur op.var := by
          rcases h2 with h2 | h2
          · exact h2
          · simp at h2
        have hstr : op.scheme = .strong := by
          rcases loaded_scheme hex i op rest old h1 with h | h
          · exact h
          · obtain ⟨d, hd⟩ := exec_todo hex i
            exact absurd h (hp op (by rw [← hd, h1]; simp))
        have hne := h3 hstr
        have := hstale ⟨op, rest, old, h1, by rw [← hx]; exact hne⟩
        refine ⟨by simpa [failsOf, commitsOfOthers] using this, ?_⟩
        rintro ⟨op', rest', old', he, hne'⟩
        simp only [State.setThr, Function.update_self, Thread.mk.injEq, List.cons.injEq, Pc.loaded.injEq] at he
        obtain ⟨⟨rfl, rfl⟩, rfl⟩ := he
        exact absurd hx.symm hne'
      | _ =>
        refine ⟨by simpa [failsOf, commitsOfOthers] using hle, ?_⟩
        rintro ⟨op', rest', old', he, hne⟩
        simp [State.setThr] at he
    · obtain ⟨hco, hfa⟩ := commitsOfOthers_of_others hi hframe.2
      rw [hco, hfa]
      refine ⟨by omega, ?_⟩
      rcases step_cur hst with hc | hc
      · rintro ⟨op, rest, old, he, hne⟩
        rw [hframe.1 i hi] at he
        rw [hc] at hne
        have := hstale ⟨op, rest, old, he, hne⟩
        omega
      · intro _; omega

/-- C45: an attempt fails only because of another thread's update.  In every execution in which
loads return the current value, a thread that does not use the weak scheme fails at most as often
as other threads' updates take effect, however many threads there are and whatever schemes they
use -/
theorem C45_failures {m0 : V → T} {progs : ι → List (Op V T)} {tr : List (Event ι V T)} {s : State ι V T}
    {i : ι} (hp : ∀ op ∈ progs i, op.scheme ≠ .weak) (h : Exec true (init m0 progs) tr s) :
    failsOf i tr ≤ commitsOfOthers i tr := (lockfree_inv hp h).1

example : ∃ tr s, Exec true (init (fun _ : Unit => (0 : Int))
      (two ⟨.strong, (), binary (· + 1)⟩ ⟨.weak, (), binary (· + 10)⟩)) tr s ∧ 0 < failsOf true tr ∧
      failsOf true tr ≤ commitsOfOthers true tr := by
  obtain ⟨tr, s, h, -, -, hf⟩ := casRun
  exact ⟨tr, s, h, List.countP_pos_iff.2 ⟨_, hf, by simp⟩, C45_failures (by simp [two]) h⟩

/-- C45: in particular a thread running alone succeeds at the first attempt -/
theorem C45_alone {m0 : V → T} {progs : ι → List (Op V T)} {tr : List (Event ι V T)} {s : State ι V T}
    {i : ι} (hp : ∀ op ∈ progs i, op.scheme ≠ .weak) (h : Exec true (init m0 progs) tr s)
    (ha : ∀ j, j ≠ i → progs j = []) : failsOf i tr = 0 := by
  have h0 : commitsOfOthers i tr = 0 := by
    clear hp
    induction h with
    | nil => rfl
    | @snoc tr s1 s2 ev j hex hst ih =>
      by_cases hj : j = i
      · subst hj
        have : commitsOfOthers j ev = 0 := by cases hst <;> simp [commitsOfOthers]
        simpa [commitsOfOthers, List.countP_append] using ⟨by simpa [commitsOfOthers] using ih, by simpa [commitsOfOthers] using this⟩
      · exfalso
        obtain ⟨d, hd⟩ := exec_todo hex j
        rw [ha j hj] at hd
        have ht : (s1.thr j).todo = [] := (List.append_eq_nil_iff.mp hd).2
        cases hst <;> simp_all
  have := C45_failures hp h
  omega


example : ∃ tr s, Exec true (init (fun _ : Unit => (0 : Int))
      (fun i : Bool => if i then [⟨.strong, (), binary (· + 1)⟩, ⟨.native, (), binary (· + 2)⟩] else [])) tr s ∧
      s.cur () = 3 ∧ failsOf true tr = 0 := by
  obtain ⟨tr, s, h, -, h3⟩ := aloneRun
  exact ⟨tr, s, h, h3, C45_alone (by simp) h (by simp)⟩

/-- failed attempts of all threads, and all updates -/
def failsAll (tr : List (Event ι V T)) : Nat := tr.countP fun e => match e with | .fail _ => true | _ => false

omit [DecidableEq V] in
theorem failsAll_eq [Fintype ι] (tr : List (Event ι V T)) : failsAll tr = ∑ i, failsOf i tr := by
  induction tr with
  | nil => simp [failsAll, failsOf]
  | cons e tr ih =>
    cases e with
    | fail k =>
      have h1 : failsAll (Event.fail k :: tr) = failsAll tr + 1 := by simp [failsAll]
      have h2 : ∀ i, failsOf i (Event.fail (V := V) (T := T) k :: tr) = failsOf i tr + if k = i then 1 else 0 := by
        intro i
        by_cases h : k = i <;> simp [failsOf, h]
      simp only [h1, h2, Finset.sum_add_distrib, ih]
      simp
    | _ => simpa [failsAll, failsOf] using ih

omit [DecidableEq V] in
theorem commitsOfOthers_le (i : ι) (tr : List (Event ι V T)) : commitsOfOthers i tr ≤ (commits tr).length := by
  induction tr with
  | nil => simp [commitsOfOthers, commits]
  | cons e tr ih =>
    cases e with
    | commit k op r =>
      have : commitsOfOthers i (Event.commit k op r :: tr) ≤ commitsOfOthers i tr + 1 := by
        rw [commitsOfOthers, List.countP_cons]
        by_cases h : k = i <;> simp [commitsOfOthers, h]
      simp only [commits, List.length_cons]
      omega
    | _ => simpa [commitsOfOthers, commits] using ih

/-- C45: in every schedule of `n` threads the failed attempts are at most `n` times the completed
updates (and so a schedule that lasts long enough completes updates) -/
theorem C45_bounded [Fintype ι] {m0 : V → T} {progs : ι → List (Op V T)} {tr : List (Event ι V T)}
    {s : State ι V T} (hp : ∀ i, ∀ op ∈ progs i, op.scheme ≠ .weak) (h : Exec true (init m0 progs) tr s) :
    failsAll tr ≤ Fintype.card ι * (commits tr).length := by
  rw [failsAll_eq]
  calc ∑ i, failsOf i tr ≤ ∑ _i : ι, (commits tr).length :=
        Finset.sum_le_sum fun i _ => (C45_failures (hp i) h).trans (commitsOfOthers_le i tr)
    _ = _ := by simp

example : ∃ tr s, Exec true (init (fun _ : Unit => (0 : Int))
      (two ⟨.strong, (), binary (· + 1)⟩ ⟨.strong, (), binary (· + 10)⟩)) tr s ∧ Event.fail true ∈ tr ∧
      failsAll tr ≤ 2 * (commits tr).length := by
  obtain ⟨tr, s, h, -, -, hf⟩ := strongRun
  exact ⟨tr, s, h, hf, C45_bounded (by intro i; cases i <;> simp [two]) h⟩

/-! ## C45: the weak scheme may fail without bound -/

/-- C45 does not extend to the weak scheme: any number of attempts can fail though no update
takes effect at all -/
theorem C45_weak_fails (n : Nat) (i : ι) (op : Op V T) (hop : op.scheme = .weak) (m0 : V → T) :
    ∃ tr s, Exec true (init m0 fun _ : ι => [op]) tr s ∧ failsOf i tr = n ∧ commits tr = [] := by
  have h : ∃ tr s, Exec true (init m0 fun _ : ι => [op]) tr s ∧ failsOf i tr = n ∧ commits tr = [] ∧
      s.cur = m0 ∧ s.thr i = ⟨[op], .loaded (m0 op.var)⟩ := by
    induction n with
    | zero =>
      refine ⟨_, _, .snoc i .nil (.load op [] (m0 op.var) rfl (.inr hop) (.inl rfl)), rfl, rfl, rfl, ?_⟩
      simp [State.setThr]
    | succ n ih =>
      obtain ⟨tr, s, he, hn, hc, hcur, ht⟩ := ih
      refine ⟨_, _, .snoc i he (.casFail op [] _ (m0 op.var) ht (.inl (by rw [hcur])) (by simp [hop])), ?_, ?_, hcur, ?_⟩
      · rw [failsOf, List.countP_append, ← failsOf, hn]; simp
      · rw [commits_append, hc]; rfl
      · simp [State.setThr]
  obtain ⟨tr, s, h1, h2, h3, _⟩ := h
  exact ⟨tr, s, h1, h2, h3⟩

/-- a thousand failures in a row -/
example : ∃ tr s, Exec true (init (fun _ : Unit => (0 : Int)) fun _ : Bool => [⟨.weak, (), binary (· + 1)⟩]) tr s ∧
    failsOf true tr = 1000 ∧ commits tr = [] := C45_weak_fails 1000 true _ rfl _

/-! ## C46 -/

/-- inside the critical section -/
def Pc.inLock : Pc T → Bool
  | .locked | .lockRead _ | .lockWrote _ => true
  | _ => false

theorem mutex_inv {sc : Bool} {m0 : V → T} {progs : ι → List (Op V T)} {tr : List (Event ι V T)} {s : State ι V T}
    (h : Exec sc (init m0 progs) tr s) : ∀ i, (s.thr i).pc.inLock = true ↔ s.mutex = some i := by
  induction h with
  | nil => simp [init, Pc.inLock]
  | @snoc tr s1 s2 ev j hex hst ihall =>
    intro i
    have ih := ihall i
    by_cases hi : i = j
    · subst hi
      cases hst with
      | load op rest x h1 h2 h3 => rw [h1] at ih; simpa [State.setThr, Pc.inLock] using ih
      | casOk op rest old h1 h2 => rw [h1] at ih; simpa [State.setThr, State.write, Pc.inLock] using ih
      | casFail op rest old x h1 h2 h3 => rw [h1] at ih; simpa [State.setThr, Pc.inLock] using ih
      | fetch op rest h1 h2 => rw [h1] at ih; simpa [State.setThr, State.write, Pc.inLock] using ih
      | reload op rest x h1 h2 => rw [h1] at ih; simpa [State.setThr, Pc.inLock] using ih
      | unary op rest h1 h2 => rw [h1] at ih; simpa [State.setThr, State.write, Pc.inLock] using ih
      | acquire op rest h1 h2 h3 => simp [State.setThr, Pc.inLock]
      | lockRead op rest h1 => rw [h1] at ih; simpa [State.setThr, Pc.inLock] using ih
      | lockWrite op rest old h1 => rw [h1] at ih; simpa [State.setThr, State.write, Pc.inLock] using ih
      | release op rest r h1 => simp [State.setThr, Pc.inLock]
      | serRead op rest h1 h2 => rw [h1] at ih; simpa [State.setThr, Pc.inLock] using ih
      | serWrite op rest old h1 => rw [h1] at ih; simpa [State.setThr, State.write, Pc.inLock] using ih
    · have ht := (step_frame hst).1 i hi
      rw [ht]
      cases hst with
      | acquire op rest h1 h2 h3 =>
        rw [h3] at ih
        simp only [reduceCtorEq, iff_false] at ih
        have : ¬ j = i := fun e => hi e.symm
        simp [State.setThr, ih, this]
      | release op rest r h1 =>
        have hj : s1.mutex = some j := (ihall j).mp (by rw [h1]; rfl)
        rw [hj] at ih
        have : ¬ j = i := fun e => hi e.symm
        simp only [Option.some.injEq, this, iff_false] at ih
        simp [State.setThr, ih]
      | _ => simpa [State.setThr, State.write] using ih

/-- C46: at most one thread is inside the critical section, in every reachable state, whatever
schemes the other calls of the programs use -/
theorem C46_mutual_exclusion {sc : Bool} {m0 : V → T} {progs : ι → List (Op V T)} {tr : List (Event ι V T)}
    {s : State ι V T} (h : Exec sc (init m0 progs) tr s) (i j : ι) (hi : (s.thr i).pc.inLock = true)
    (hj : (s.thr j).pc.inLock = true) : i = j := by
  rw [mutex_inv h] at hi hj
  exact Option.some.inj (hi.symm.trans hj)

/-- one thread is inside, so the other is not -/
example : ∃ tr s, Exec true (init (fun _ : Unit => (0 : Int))
      (two ⟨.lock, (), binary (· + 1)⟩ ⟨.lock, (), binary (· * 10)⟩)) tr s ∧
      (s.thr true).pc.inLock = true ∧ ¬ (s.thr false).pc.inLock = true := by
  obtain ⟨tr, s, h, -, hpc, -⟩ := lockedRun
  have ht : (s.thr true).pc.inLock = true := by rw [hpc]; rfl
  exact ⟨tr, s, h, ht, fun hf => absurd (C46_mutual_exclusion h _ _ ht hf) (by simp)⟩

/-- the events of one call that nothing interrupts -/
def wholeCall (e : ι × Op V T × T) : List (Event ι V T) := [.invoke e.1, .commit e.1 e.2.1 e.2.2, .ret e.1 e.2.2]

/-- lock-only programs: where the thread may be, and that what it read is still there -/
def LockThread (cur : V → T) (t : Thread V T) : Prop :=
  (∀ op ∈ t.todo, op.scheme = .lock) ∧
  (t.pc = .idle ∨ (t.pc = .locked ∧ t.todo ≠ []) ∨
    (∃ op rest, t = ⟨op :: rest, .lockRead (cur op.var)⟩) ∨ (∃ op rest r, t = ⟨op :: rest, .lockWrote r⟩))

theorem lock_inv {sc : Bool} {m0 : V → T} {progs : ι → List (Op V T)} {tr : List (Event ι V T)} {s : State ι V T}
    (hp : ∀ i, ∀ op ∈ progs i, op.scheme = .lock) (h : Exec sc (init m0 progs) tr s) :
    Serial m0 (commits tr) s.cur ∧ (∀ i, LockThread s.cur (s.thr i)) ∧
    ∃ (order : List (ι × Op V T × T)) (part : List (Event ι V T)), tr = order.flatMap wholeCall ++ part ∧
      ((s.mutex = none ∧ part = []) ∨ ∃ i, s.mutex = some i ∧ InCall i (s.thr i) part) := by
  induction h with
  | nil => exact ⟨rfl, fun i => ⟨hp i, .inl rfl⟩, [], [], rfl, .inl ⟨rfl, rfl⟩⟩
  | @snoc tr s1 s2 ev j hex hst ih =>
    obtain ⟨ihs, iht, order, part, htr, hm⟩ := ih
    have hmi := mutex_inv hex
    have hframe := step_frame hst
    obtain ⟨hsch, hpc⟩ := iht j
    -- another thread inside the critical section excludes `j` being there
    have hexcl : s1.mutex = some j → ∀ i, i ≠ j → (s1.thr i).pc.inLock = false := by
      intro h i hi
      cases hb : (s1.thr i).pc.inLock with
      | false => rfl
      | true => exact absurd (Option.some.inj (((hmi i).mp hb).symm.trans h)) hi
    cases hst with
    | load op rest x h1 h2 h3 =>
      have := hsch op (by rw [h1]; simp)
      rw [this] at h2; simp at h2
    | casOk op rest old h1 h2 => rw [h1] at hpc; simp at hpc
    | casFail op rest old x h1 h2 h3 => rw [h1] at hpc; simp at hpc
    | fetch op rest h1 h2 =>
      have := hsch op (by rw [h1]; simp)
      rw [this] at h2; simp at h2
    | reload op rest x h1 h2 => rw [h1] at hpc; simp at hpc
    | unary op rest h1 h2 =>
      have := hsch op (by rw [h1]; simp)
      rw [this] at h2; simp at h2
    | acquire op rest h1 h2 h3 =>
      rw [h1] at hsch
      refine ⟨by simpa [commits_append, commits, State.setThr] using ihs, fun i => ?_, order, [.invoke j], ?_, ?_⟩
      · by_cases hi : i = j
        · subst hi
          exact ⟨by simpa [State.setThr] using hsch, .inr (.inl (by simp [State.setThr]))⟩
        · rw [hframe.1 i hi]; simpa [State.setThr] using iht i
      · rcases hm with ⟨_, rfl⟩ | ⟨k, hk, _⟩
        · rw [htr]; simp
        · rw [h3] at hk; simp at hk
      · refine .inr ⟨j, by simp [State.setThr], ?_⟩
        rw [State.setThr]; simpa using InCall.locked
    | lockRead op rest h1 =>
      have hj : s1.mutex = some j := (hmi j).mp (by rw [h1]; rfl)
      rw [h1] at hsch
      refine ⟨by simpa [State.setThr] using ihs, fun i => ?_, order, part, by simpa using htr, ?_⟩
      · by_cases hi : i = j
        · subst hi
          exact ⟨by simpa [State.setThr] using hsch, .inr (.inr (.inl ⟨op, rest, by simp [State.setThr]⟩))⟩
        · rw [hframe.1 i hi]; simpa [State.setThr] using iht i
      · rcases hm with ⟨hk, _⟩ | ⟨k, hk, hin⟩
        · rw [hj] at hk; simp at hk
        · rw [hj] at hk
          obtain rfl := Option.some.inj hk
          rw [h1] at hin
          refine .inr ⟨j, hj, ?_⟩
          cases hin
          rw [State.setThr]; simpa using InCall.lockRead
    | lockWrite op rest old h1 =>
      have hj : s1.mutex = some j := (hmi j).mp (by rw [h1]; rfl)
      have hold : old = s1.cur op.var := by
        rw [h1] at hpc
        simpa using hpc
      subst hold
      rw [h1] at hsch
      refine ⟨?_, fun i => ?_, ?_⟩
      · rw [commits_append]
        exact serial_snoc ihs j op
      · by_cases hi : i = j
        · subst hi
          exact ⟨by simpa [State.setThr] using hsch, .inr (.inr (.inr ⟨op, rest, _, by simp [State.setThr]; rfl⟩))⟩
        · rw [hframe.1 i hi]
          obtain ⟨ha, hb⟩ := iht i
          refine ⟨ha, ?_⟩
          have hno := hexcl hj i hi
          rcases hb with hb | ⟨hb, _⟩ | ⟨o, r, hb⟩ | ⟨o, r, x, hb⟩
          · exact .inl hb
          · rw [hb] at hno; simp [Pc.inLock] at hno
          · rw [hb] at hno; simp [Pc.inLock] at hno
          · rw [hb] at hno; simp [Pc.inLock] at hno
      · rcases hm with ⟨hk, _⟩ | ⟨k, hk, hin⟩
        · rw [hj] at hk; simp at hk
        · rw [hj] at hk
          obtain rfl := Option.some.inj hk
          rw [h1] at hin
          cases hin
          refine ⟨order, [.invoke j, .commit j op (op.f (s1.cur op.var)).2], by rw [htr]; simp, .inr ⟨j, hj, ?_⟩⟩
          rw [State.setThr]; simpa using InCall.lockWrote
    | release op rest r h1 =>
      have hj : s1.mutex = some j := (hmi j).mp (by rw [h1]; rfl)
      rw [h1] at hsch
      refine ⟨by simpa [commits_append, commits, State.setThr] using ihs, fun i => ?_, ?_⟩
      · by_cases hi : i = j
        · subst hi
          exact ⟨by simpa [State.setThr] using fun op ho => hsch op (by simp [ho]), .inl (by simp [State.setThr])⟩
        · rw [hframe.1 i hi]; simpa [State.setThr] using iht i
      · rcases hm with ⟨hk, _⟩ | ⟨k, hk, hin⟩
        · rw [hj] at hk; simp at hk
        · rw [hj] at hk
          obtain rfl := Option.some.inj hk
          rw [h1] at hin
          cases hin
          refine ⟨order ++ [(j, op, r)], [], ?_, .inl ⟨by simp [State.setThr], rfl⟩⟩
          rw [htr]; simp [wholeCall]
    | serRead op rest h1 h2 =>
      have := hsch op (by rw [h1]; simp)
      rw [this] at h2; simp at h2
    | serWrite op rest old h1 => rw [h1] at hpc; simp at hpc

omit [DecidableEq ι] [DecidableEq V] in
theorem commits_wholeCalls (order : List (ι × Op V T × T)) : commits (order.flatMap wholeCall) = order := by
  induction order with
  | nil => rfl
  | cons e l ih => simpa [wholeCall, commits] using ih

/-- C46: under the lock scheme, for any number of threads, any programs and any schedule, calls
never overlap (each runs from beginning to end before another begins) and the values they leave
and return are those of the serial execution in that order -/
theorem C46_serial {sc : Bool} {m0 : V → T} {progs : ι → List (Op V T)} {tr : List (Event ι V T)} {s : State ι V T}
    (hp : ∀ i, ∀ op ∈ progs i, op.scheme = .lock) (h : Exec sc (init m0 progs) tr s) :
    Serial m0 (commits tr) s.cur ∧
    ∃ (order : List (ι × Op V T × T)) (part : List (Event ι V T)), tr = order.flatMap wholeCall ++ part ∧
      (part = [] ∨ ∃ i, part = [.invoke i] ∨ ∃ op r, part = [.invoke i, .commit i op r]) := by
  obtain ⟨h1, h2, order, part, h3, h4⟩ := lock_inv hp h
  refine ⟨h1, order, part, h3, ?_⟩
  rcases h4 with ⟨_, h4⟩ | ⟨i, hm, h4⟩
  · exact .inl h4
  · have hi := (mutex_inv h i).mpr hm
    generalize s.thr i = t at h4 hi
    cases h4 with
    | idle => simp [Pc.inLock] at hi
    | loaded k => simp [Pc.inLock] at hi
    | locked => exact .inr ⟨i, .inl rfl⟩
    | lockRead => exact .inr ⟨i, .inl rfl⟩
    | lockWrote => exact .inr ⟨i, .inr ⟨_, _, rfl⟩⟩
    | serRead => simp [Pc.inLock] at hi

example : ∃ tr s, Exec true (init (fun _ : Unit => (0 : Int))
      (two ⟨.lock, (), binary (· + 1)⟩ ⟨.lock, (), binary (· * 10)⟩)) tr s ∧ s.cur () = 10 ∧
      Serial (fun _ => 0) (commits tr) s.cur := by
  obtain ⟨tr, s, h, -, h10⟩ := lockRun
  exact ⟨tr, s, h, h10, (C46_serial (by intro i; cases i <;> simp [two]) h).1⟩

/-- C46: each thread's calls are made in order, and when all threads have finished each has been
applied exactly once -/
theorem C46_all_applied {sc : Bool} {m0 : V → T} {progs : ι → List (Op V T)} {tr : List (Event ι V T)}
    {s : State ι V T} (hp : ∀ i, ∀ op ∈ progs i, op.scheme = .lock) (h : Exec sc (init m0 progs) tr s)
    (hf : Finished s) : ∃ order : List (ι × Op V T × T), tr = order.flatMap wholeCall ∧ Serial m0 order s.cur ∧ ∀ i, opsOf i order = progs i := by
  obtain ⟨h1, h2, order, part, h3, h4⟩ := lock_inv hp h
  have hidle : ∀ i, (s.thr i).pc = .idle := by
    intro i
    obtain ⟨_, hb⟩ := h2 i
    have hfi := hf i
    rcases hb with hb | ⟨_, hb⟩ | ⟨o, r, hb⟩ | ⟨o, r, x, hb⟩
    · exact hb
    · exact absurd hfi hb
    · rw [hb] at hfi; simp at hfi
    · rw [hb] at hfi; simp at hfi
  have hpart : part = [] := by
    rcases h4 with ⟨_, h4⟩ | ⟨i, hm, h4⟩
    · exact h4
    · have hi := (mutex_inv h i).mpr hm
      rw [hidle i] at hi; simp [Pc.inLock] at hi
  subst hpart
  rw [List.append_nil] at h3
  have hco : commits tr = order := by rw [h3, commits_wholeCalls]
  refine ⟨order, h3, by rwa [hco] at h1, fun i => ?_⟩
  obtain ⟨done, calls, part, hd, hc, hin, hpr⟩ := calls_inv (fun i op ho => by simp [hp i op ho]) h i
  rw [hf i, List.append_nil] at hd
  subst hd
  have hp0 : part = [] := by
    have h5 := hidle i
    generalize s.thr i = t at hin h5
    cases hin <;> simp at h5 ⊢
  subst hp0
  rw [List.append_nil] at hpr
  rw [← commits_of_calls hc, ← hpr, ← hco]
  clear h h1 h2 h3 h4 hco hpr hc hidle hp hf
  induction tr with
  | nil => rfl
  | cons e tr ih =>
    by_cases hw : e.who = i
    · have : proj i (e :: tr) = e :: proj i tr := by simp [proj, hw]
      rw [this]
      cases e with
      | commit k op r =>
        have : k = i := hw
        subst this
        simp only [commits, List.map_cons]
        rw [← ih]
        simp [opsOf]
      | _ => simpa [commits] using ih
    · have : proj i (e :: tr) = proj i tr := by simp [proj, hw]
      rw [this]
      cases e with
      | commit k op r =>
        have : ¬ k = i := hw
        simp only [commits]
        rw [← ih]
        simp [opsOf, this]
      | _ => simpa [commits] using ih

example : ∃ tr s, ∃ order : List (Bool × Op Unit Int × Int), Exec true (init (fun _ : Unit => (0 : Int))
      (two ⟨.lock, (), binary (· + 1)⟩ ⟨.lock, (), binary (· * 10)⟩)) tr s ∧ tr = order.flatMap wholeCall ∧
      opsOf false order = [⟨.lock, (), binary (· * 10)⟩] := by
  obtain ⟨tr, s, h, hf, -⟩ := lockRun
  obtain ⟨order, h1, -, h3⟩ := C46_all_applied (by intro i; cases i <;> simp [two]) h hf
  exact ⟨tr, s, order, h, h1, h3 false⟩

/-- C46: the lock scheme cannot deadlock: unless every thread has finished, some thread can take
a step -/
theorem C46_no_deadlock {sc : Bool} {m0 : V → T} {progs : ι → List (Op V T)} {tr : List (Event ι V T)}
    {s : State ι V T} (hp : ∀ i, ∀ op ∈ progs i, op.scheme = .lock) (h : Exec sc (init m0 progs) tr s)
    (hf : ¬ Finished s) : ∃ i ev s', Step sc s i ev s' := by
  obtain ⟨_, h2, _⟩ := lock_inv hp h
  cases hm : s.mutex with
  | none =>
    rw [Finished, not_forall] at hf
    obtain ⟨i, hi⟩ := hf
    obtain ⟨hsch, hb⟩ := h2 i
    have hno : ¬ (s.thr i).pc.inLock = true := by rw [mutex_inv h, hm]; simp
    generalize ht : s.thr i = t at hsch hb hi hno
    obtain ⟨todo, pc⟩ := t
    cases todo with
    | nil => exact absurd rfl hi
    | cons op rest =>
      have hidle : pc = .idle := by
        rcases hb with hb | ⟨hb, _⟩ | ⟨o, r, hb⟩ | ⟨o, r, x, hb⟩
        · exact hb
        · simp only at hb; subst hb; simp [Pc.inLock] at hno
        · rw [hb] at hno; simp [Pc.inLock] at hno
        · rw [hb] at hno; simp [Pc.inLock] at hno
      subst hidle
      exact ⟨i, _, _, .acquire op rest ht (hsch op (by simp)) hm⟩
  | some i =>
    have hi := (mutex_inv h i).mpr hm
    obtain ⟨hsch, hb⟩ := h2 i
    rcases hb with hb | ⟨hb, hne⟩ | ⟨o, r, hb⟩ | ⟨o, r, x, hb⟩
    · rw [hb] at hi; simp [Pc.inLock] at hi
    · generalize ht : s.thr i = t at hb hne
      obtain ⟨todo, pc⟩ := t
      cases todo with
      | nil => exact absurd rfl hne
      | cons op rest =>
        simp only at hb; subst hb
        exact ⟨i, _, _, .lockRead op rest ht⟩
    · exact ⟨i, _, _, .lockWrite o r _ hb⟩
    · exact ⟨i, _, _, .release o r x hb⟩

example : ∃ tr s, Exec true (init (fun _ : Unit => (0 : Int))
      (two ⟨.lock, (), binary (· + 1)⟩ ⟨.lock, (), binary (· * 10)⟩)) tr s ∧ (s.thr true).pc = .lockRead 0 ∧
      ∃ i ev s', Step true s i ev s' := by
  obtain ⟨tr, s, h, hf, hpc, -⟩ := lockedRun
  exact ⟨tr, s, h, hpc, C46_no_deadlock (by intro i; cases i <;> simp [two]) h hf⟩

end
end Verif.Atomics
