import Verif.Atomics.PropsPublish

/-!
# C99: handing plain data over under the `lock` and `serial` schemes
-/

namespace Verif.Atomics

set_option linter.unusedSectionVars false

section
variable {ι V D T X : Type} [DecidableEq ι] [DecidableEq V] [DecidableEq D]

/-- what the next lock of the mutex learns only grows -/
theorem step_mview {s s' : MState ι V D T X} {i : ι} {a : Act V D T X} (h : MStep s i a s') : s.mview ≤ s'.mview := by
  cases h
  case unlock => exact le_sup_left
  all_goals exact le_refl _

theorem exec_mview {s s' : MState ι V D T X} {tr : List (ι × Act V D T X)} (h : MExec s tr s') : s.mview ≤ s'.mview := by
  induction h with
  | nil => exact le_refl _
  | snoc i _ hs ih => exact le_trans ih (step_mview hs)

/-- **C99** Under the `lock` scheme every update hands on everything its thread has done and knows
to every later update, even of another variable, as long as it is of the same type (they share a
mutex). -/
theorem C99_lock_publish {s0 s1 s2 s3 : MState ι V D T X} {a b : ι} {tr : List (ι × Act V D T X)}
    (ha : MStep s0 a .unlock s1) (he : MExec s1 tr s2) (hb : MStep s2 b .lock s3) :
    (s0.thr a).view ≤ (s3.thr b).view := by
  have h1 : (s0.thr a).view ≤ s1.mview := by
    cases ha
    case unlock x c k r w h => rw [h]; exact le_sup_right
  have h3 : s2.mview ≤ (s3.thr b).view := by
    cases hb
    case lock x c k w h _ _ => simp only [MState.set, Function.update_self]; exact le_sup_right
  exact le_trans h1 (le_trans (exec_mview he) h3)

/-- a program all of whose updates use the `lock` scheme -/
inductive AllLock : Prog V D T X → Prop
  | done : AllLock .done
  | put (d : D) (v : X) (k : Prog V D T X) : AllLock k → AllLock (.put d v k)
  | get (d : D) (k : X → Prog V D T X) : (∀ v, AllLock (k v)) → AllLock (.get d k)
  | update (x : V) (c : Compiled T) (k : T → Prog V D T X) : c.1 = .lock → (∀ r, AllLock (k r)) →
      AllLock (.update x c k)

/-- inside the critical section -/
def Inside : Pc T → Prop
  | .locked => True
  | .lockRead _ => True
  | .lockWrote _ => True
  | _ => False

/-- what holds in all executions under the `lock` scheme: only the holder of the mutex is inside the
critical section, and the plain accesses of the variables so far are known to the holder, or else
to the next one -/
structure LockInv (s : MState ι V D T X) : Prop where
  all : ∀ i, AllLock (s.thr i).prog
  idle : ∀ i, s.mutex ≠ some i → (s.thr i).pc = .idle
  inside : ∀ i, s.mutex = some i → Inside (s.thr i).pc
  free : s.mutex = none → ∀ x j, s.wr (.inl x) j ≤ s.mview (.inr j) ∧ s.rd (.inl x) j ≤ s.mview (.inr j)
  held : ∀ i, s.mutex = some i → ∀ x j, s.wr (.inl x) j ≤ (s.thr i).view (.inr j) ∧
    s.rd (.inl x) j ≤ (s.thr i).view (.inr j)

theorem lockInv_init (m0 : V → T) (d0 : D → X) (progs : ι → Prog V D T X) (h : ∀ i, AllLock (progs i)) :
    LockInv (minit m0 d0 progs) where
  all := h
  idle := fun _ _ => rfl
  inside := by intro i hi; simp [minit] at hi
  free := by intro _ x j; simp [minit]
  held := by intro i hi; simp [minit] at hi

theorem note_le {f : V ⊕ D → ι → Nat} {o o' : V ⊕ D} {i j : ι} {n b : Nat} (h : f o' j ≤ b) (hn : o' = o → j = i → n ≤ b) :
    note f o i n o' j ≤ b := by
  unfold note
  by_cases ho : o' = o
  · subst ho
    rw [Function.update_self]
    by_cases hj : j = i
    · subst hj; rw [Function.update_self]; exact hn rfl rfl
    · rw [Function.update_of_ne hj]; exact h
  · rw [Function.update_of_ne ho]; exact h

theorem note_ne {f : V ⊕ D → ι → Nat} {o o' : V ⊕ D} {i : ι} {n : Nat} (h : o' ≠ o) : note f o i n o' = f o' := by
  unfold note; rw [Function.update_of_ne h]

theorem tick_self (s : MState ι V D T X) (i : ι) : s.tick i (.inr i) = (s.thr i).view (.inr i) + 1 := by
  simp [MState.tick]

/-- the thread inside the critical section holds the mutex -/
theorem LockInv.holder {s : MState ι V D T X} (h : LockInv s) {i : ι} (hp : (s.thr i).pc ≠ .idle) : s.mutex = some i := by
  by_contra hm
  exact hp (h.idle i hm)

theorem lockInv_step {s s' : MState ι V D T X} {i : ι} {a : Act V D T X} (h : LockInv s) (hs : MStep s i a s') :
    LockInv s' := by
  have hoth := fun j (hj : j ≠ i) => step_other hs hj
  cases hs
  case load x c k t m w ht hc _ =>
    have := h.all i; rw [ht] at this; cases this
    rename_i e _; rw [e] at hc; rcases hc with hc | hc <;> cases hc
  case casOk x c k t m w ht hn =>
    have hm := h.holder (i := i) (by rw [ht]; simp)
    have := h.inside i hm; rw [ht] at this; exact this.elim
  case casFail x c k old t m w ht hr hne =>
    have hm := h.holder (i := i) (by rw [ht]; simp)
    have := h.inside i hm; rw [ht] at this; exact this.elim
  case fetch x c k t m w ht hc _ =>
    have := h.all i; rw [ht] at this; cases this
    rename_i e _; rw [e] at hc; cases hc
  case reload x c k t m w ht hr =>
    have hm := h.holder (i := i) (by rw [ht]; simp)
    have := h.inside i hm; rw [ht] at this; exact this.elim
  case unary x c k t m w ht hc _ =>
    have := h.all i; rw [ht] at this; cases this
    rename_i e _; rw [e] at hc; cases hc
  case serRead x c k t m w ht hc _ _ =>
    have := h.all i; rw [ht] at this; cases this
    rename_i e _; rw [e] at hc; cases hc
  case serWrite x c k old w ht _ =>
    have hm := h.holder (i := i) (by rw [ht]; simp)
    have := h.inside i hm; rw [ht] at this; exact this.elim
  case lock x c k w ht hc hm =>
    have ha := h.all i
    rw [ht] at ha
    refine ⟨fun j => ?_, fun j hj => ?_, fun j hj => ?_, fun hn => ?_, fun j hj y l => ?_⟩
    · by_cases hj : j = i
      · subst hj; simpa [MState.set] using ha
      · rw [hoth j hj]; exact h.all j
    · have hj' : j ≠ i := fun e => hj (by simp [MState.set, e])
      rw [hoth j hj']; exact h.idle j (by rw [hm]; simp)
    · have : i = j := by simpa [MState.set] using hj
      subst this; simp [MState.set, Inside]
    · simp [MState.set] at hn
    · have : i = j := by simpa [MState.set] using hj
      subst this
      have := h.free hm y l
      simp only [MState.set, Function.update_self]
      exact ⟨le_trans this.1 (le_sup_right (a := w) (b := s.mview) _), le_trans this.2 (le_sup_right (a := w) (b := s.mview) _)⟩
  case lockRead x c k t m w ht _ _ =>
    have hm := h.holder (i := i) (by rw [ht]; simp)
    have ha := h.all i
    rw [ht] at ha
    refine ⟨fun j => ?_, fun j hj => ?_, fun j hj => ?_, fun hn => ?_, fun j hj y l => ?_⟩
    · by_cases hj : j = i
      · subst hj; simpa [MState.set] using ha
      · rw [hoth j hj]; exact h.all j
    · have hj' : j ≠ i := fun e => hj (by simp [MState.set, MState.noteRd, e, hm])
      rw [hoth j hj']; exact h.idle j hj
    · have : i = j := by simpa [MState.set, MState.noteRd, hm] using hj
      subst this; simp [MState.set, Inside]
    · simp [MState.set, MState.noteRd, hm] at hn
    · have : i = j := by simpa [MState.set, MState.noteRd, hm] using hj
      subst this
      have := h.held i hm y l
      simp only [MState.set, MState.noteRd, Function.update_self]
      exact ⟨le_trans this.1 (le_tick s i _), note_le (le_trans this.2 (le_tick s i _))
        fun _ e => by subst e; rw [tick_self]⟩
  case lockWrite x c k old w ht _ =>
    have hm := h.holder (i := i) (by rw [ht]; simp)
    have ha := h.all i
    rw [ht] at ha
    refine ⟨fun j => ?_, fun j hj => ?_, fun j hj => ?_, fun hn => ?_, fun j hj y l => ?_⟩
    · by_cases hj : j = i
      · subst hj; simpa [MState.set] using ha
      · rw [hoth j hj]; exact h.all j
    · have hj' : j ≠ i := fun e => hj (by simp [MState.set, MState.noteWr, MState.push, e, hm])
      rw [hoth j hj']; exact h.idle j hj
    · have : i = j := by simpa [MState.set, MState.noteWr, MState.push, hm] using hj
      subst this; simp [MState.set, Inside]
    · simp [MState.set, MState.noteWr, MState.push, hm] at hn
    · have : i = j := by simpa [MState.set, MState.noteWr, MState.push, hm] using hj
      subst this
      have := h.held i hm y l
      simp only [MState.set, MState.noteWr, MState.push, Function.update_self]
      exact ⟨note_le (le_trans this.1 (le_tick s i _)) fun _ e => by subst e; rw [tick_self],
        le_trans this.2 (le_tick s i _)⟩
  case unlock x c k r w ht =>
    have hm := h.holder (i := i) (by rw [ht]; simp)
    have ha := h.all i
    rw [ht] at ha
    refine ⟨fun j => ?_, fun j hj => ?_, fun j hj => ?_, fun hn y l => ?_, fun j hj y l => ?_⟩
    · by_cases hj : j = i
      · subst hj; cases ha; rename_i hk; simpa [MState.set] using hk r
      · rw [hoth j hj]; exact h.all j
    · by_cases hj' : j = i
      · subst hj'; simp [MState.set]
      · rw [hoth j hj']; exact h.idle j (by rw [hm]; simpa using fun e => hj' e.symm)
    · simp [MState.set] at hj
    · have := h.held i hm y l
      rw [ht] at this
      exact ⟨le_trans this.1 (le_sup_right (a := s.mview) (b := w) _), le_trans this.2 (le_sup_right (a := s.mview) (b := w) _)⟩
    · simp [MState.set] at hj
  case put d v k w ht _ =>
    have hm : s.mutex ≠ some i := fun e => by have := h.inside i e; rw [ht] at this; exact this
    have ha := h.all i
    rw [ht] at ha
    refine ⟨fun j => ?_, fun j hj => ?_, fun j hj => ?_, fun hn y l => ?_, fun j hj y l => ?_⟩
    · by_cases hj : j = i
      · subst hj; cases ha; simpa [MState.set]
      · rw [hoth j hj]; exact h.all j
    · by_cases hj' : j = i
      · subst hj'; simp [MState.set]
      · rw [hoth j hj']; exact h.idle j hj
    · have hj' : j ≠ i := fun e => hm (by rw [← e]; exact hj)
      rw [hoth j hj']; exact h.inside j hj
    · have := h.free hn y l
      simp only [MState.set, MState.noteWr]
      rw [note_ne (by simp)]; exact this
    · have hj' : j ≠ i := fun e => hm (by rw [← e]; exact hj)
      have := h.held j hj y l
      rw [hoth j hj']
      simp only [MState.set, MState.noteWr]
      rw [note_ne (by simp)]; exact this
  case get d k w ht _ =>
    have hm : s.mutex ≠ some i := fun e => by have := h.inside i e; rw [ht] at this; exact this
    have ha := h.all i
    rw [ht] at ha
    refine ⟨fun j => ?_, fun j hj => ?_, fun j hj => ?_, fun hn y l => ?_, fun j hj y l => ?_⟩
    · by_cases hj : j = i
      · subst hj; cases ha; rename_i hk; simpa [MState.set] using hk _
      · rw [hoth j hj]; exact h.all j
    · by_cases hj' : j = i
      · subst hj'; simp [MState.set]
      · rw [hoth j hj']; exact h.idle j hj
    · have hj' : j ≠ i := fun e => hm (by rw [← e]; exact hj)
      rw [hoth j hj']; exact h.inside j hj
    · have := h.free hn y l
      simp only [MState.set, MState.noteRd]
      rw [note_ne (by simp)]; exact this
    · have hj' : j ≠ i := fun e => hm (by rw [← e]; exact hj)
      have := h.held j hj y l
      rw [hoth j hj']
      simp only [MState.set, MState.noteRd]
      rw [note_ne (by simp)]; exact this

theorem lockInv_exec {s s' : MState ι V D T X} {tr : List (ι × Act V D T X)} (h : LockInv s) (he : MExec s tr s') :
    LockInv s' := by
  induction he with
  | nil => exact h
  | snoc i _ hs ih => exact lockInv_step ih hs

/-- **C99** If all updates use the `lock` scheme then, whatever the threads do and however they
interleave, the plain accesses by which an update reads and writes its variable are never a data
race. -/
theorem C99_lock (m0 : V → T) (d0 : D → X) (progs : ι → Prog V D T X) (hl : ∀ i, AllLock (progs i))
    {tr : List (ι × Act V D T X)} {s : MState ι V D T X} (he : MExec (minit m0 d0 progs) tr s) (i : ι)
    (x : V) (c : Compiled T) (k : T → Prog V D T X) (hu : (s.thr i).prog = .update x c k) : ¬ Race s i := by
  have h := lockInv_exec (lockInv_init m0 d0 progs hl) he
  intro hr
  have clear : (s.thr i).pc ≠ .idle → ∀ y w, s.Clear i (.inl y) w := fun hp y w =>
    ⟨fun j => (h.held i (h.holder hp) y j).1, fun _ j => (h.held i (h.holder hp) y j).2⟩
  cases hr
  case lockRead y c' k' w ht hc => exact hc (clear (by rw [ht]; simp) _ _)
  case lockWrite y c' k' old w ht hc => exact hc (clear (by rw [ht]; simp) _ _)
  case serWrite y c' k' old w ht hc => exact hc (clear (by rw [ht]; simp) _ _)
  case serRead y c' k' w ht hs hc =>
    have := h.all i; rw [ht] at this; cases this
    rename_i e _; rw [e] at hs; cases hs
  case put ht hc => rw [ht] at hu; cases hu
  case get ht hc => rw [ht] at hu; cases hu

/-- a thread's own accesses happen before what it does next -/
structure OwnInv (s : MState ι V D T X) : Prop where
  wr : ∀ o i, s.wr o i ≤ (s.thr i).view (.inr i)
  rd : ∀ o i, s.rd o i ≤ (s.thr i).view (.inr i)

theorem ownInv_step {s s' : MState ι V D T X} {i : ι} {a : Act V D T X} (h : OwnInv s) (hs : MStep s i a s') :
    OwnInv s' := by
  have hv := step_view_all hs
  have hsame : s'.wr = s.wr → s'.rd = s.rd → OwnInv s' := fun e1 e2 =>
    ⟨fun o j => by rw [e1]; exact le_trans (h.wr o j) (hv j _), fun o j => by rw [e2]; exact le_trans (h.rd o j) (hv j _)⟩
  have hrd : ∀ o, s'.wr = s.wr → s'.rd = note s.rd o i ((s.thr i).view (.inr i) + 1) →
      (s'.thr i).view = s.tick i → OwnInv s' := fun o e1 e2 e3 =>
    ⟨fun o j => by rw [e1]; exact le_trans (h.wr o j) (hv j _), fun o' j => by
      rw [e2]
      refine note_le (le_trans (h.rd o' j) (hv j _)) fun _ e => ?_
      subst e; rw [e3, tick_self]⟩
  have hwr : ∀ o, s'.rd = s.rd → s'.wr = note s.wr o i ((s.thr i).view (.inr i) + 1) →
      (s'.thr i).view = s.tick i → OwnInv s' := fun o e1 e2 e3 =>
    ⟨fun o' j => by
      rw [e2]
      refine note_le (le_trans (h.wr o' j) (hv j _)) fun _ e => ?_
      subst e; rw [e3, tick_self], fun o j => by rw [e1]; exact le_trans (h.rd o j) (hv j _)⟩
  cases hs
  case lockRead => exact hrd _ rfl rfl (by simp [MState.set])
  case serRead => exact hrd _ rfl rfl (by simp [MState.set])
  case get => exact hrd _ rfl rfl (by simp [MState.set])
  case lockWrite => exact hwr _ rfl rfl (by simp [MState.set])
  case serWrite => exact hwr _ rfl rfl (by simp [MState.set])
  case put => exact hwr _ rfl rfl (by simp [MState.set])
  all_goals exact hsame rfl rfl

theorem ownInv_exec {m0 : V → T} {d0 : D → X} {progs : ι → Prog V D T X} {tr : List (ι × Act V D T X)}
    {s : MState ι V D T X} (he : MExec (minit m0 d0 progs) tr s) : OwnInv s := by
  generalize hs : minit m0 d0 progs = s0 at he
  have h0 : OwnInv s0 := by subst hs; exact ⟨fun _ _ => by simp [minit], fun _ _ => by simp [minit]⟩
  clear hs
  induction he with
  | nil => exact h0
  | snoc i _ hs ih => exact ownInv_step ih hs

/-- **C99** A single thread never races with itself, under any scheme, `serial` included. -/
theorem C99_alone [Subsingleton ι] (m0 : V → T) (d0 : D → X) (progs : ι → Prog V D T X) : RaceFree m0 d0 progs := by
  intro tr s i he
  have h := ownInv_exec he
  have clear : ∀ o w, s.Clear i o w := fun o w =>
    ⟨fun j => by rw [Subsingleton.elim j i]; exact h.wr o i, fun _ j => by rw [Subsingleton.elim j i]; exact h.rd o i⟩
  intro hr
  cases hr <;> exact absurd (clear _ _) ‹_›

end

/-- **C99** Under the `serial` scheme two threads that increment a variable race, as its documentation
says. -/
theorem C99_serial_races : ¬ RaceFree (D := Unit) (X := Int) (fun _ : Unit => (0 : Int)) (fun _ => 0)
    (fun _ : Bool => .update () (.serial, binary (· + 1), .no) fun _ => .done) := by
  intro h
  refine h _ _ false (.snoc true (.snoc true .nil
    (.serRead () (.serial, binary (· + 1), .no) _ 0 ⟨0, fun _ => 0⟩ _ rfl rfl ⟨rfl, rfl⟩ ⟨by simp [minit], by simp⟩))
    (.serWrite () (.serial, binary (· + 1), .no) _ 0 _ rfl ⟨?_, fun _ => ?_⟩))
    (.serRead () (.serial, binary (· + 1), .no) _ _ rfl rfl fun hc => ?_)
  · intro j; simp [minit, MState.set, MState.noteRd]
  · intro j; cases j <;> simp [minit, MState.set, MState.noteRd, note, MState.tick]
  · have := hc.1 true
    simp [minit, MState.set, MState.noteRd, MState.noteWr, MState.push, note, MState.tick] at this

/-- two threads that write their own datum and increment under the lock -/
def lockedProg (i : Bool) : Prog Unit Bool Int Int :=
  .put i 7 (.update () (.lock, binary (· + 1), .no) fun _ => .done)

theorem lockedProg_all (i : Bool) : AllLock (lockedProg i) := .put _ _ _ (.update _ _ _ rfl fun _ => .done)

/-- one thread has unlocked, the other has locked: it knows of the first one's write -/
theorem lockedProg_run : ∃ tr s0 s1 s2, MExec (minit (fun _ => 0) (fun _ => 0) lockedProg) tr s0 ∧
    MStep s0 true .unlock s1 ∧ MStep s1 false .lock s2 ∧ (s0.thr true).view (.inr true) = 3 ∧
    (s2.thr false).prog = .update () (.lock, binary (· + 1), .no) fun _ => .done := by
  refine ⟨_, _, _, _, .snoc true (.snoc true (.snoc true (.snoc false (.snoc true .nil
    (.put true 7 _ _ rfl ⟨by simp [minit], by simp [minit]⟩))
    (.put false 7 _ _ rfl ⟨by intro j; simp [minit, MState.set, MState.noteWr, note], by intro _ j; simp [minit, MState.set, MState.noteWr]⟩))
    (.lock () (.lock, binary (· + 1), .no) _ _ rfl rfl rfl))
    (.lockRead () (.lock, binary (· + 1), .no) _ 0 ⟨0, fun _ => 0⟩ _ rfl ⟨rfl, rfl⟩
      ⟨by intro j; simp [minit, MState.set, MState.noteWr, note], by simp⟩))
    (.lockWrite () (.lock, binary (· + 1), .no) _ 0 _ rfl
      ⟨by intro j; simp [minit, MState.set, MState.noteWr, MState.noteRd, note],
       by intro _ j; cases j <;> simp [minit, MState.set, MState.noteWr, MState.noteRd, note, MState.tick]⟩),
    .unlock () (.lock, binary (· + 1), .no) _ 1 _ rfl, .lock () (.lock, binary (· + 1), .no) _ _ rfl rfl rfl, ?_, rfl⟩
  rfl

example : ∃ tr s i x c k, MExec (minit (fun _ => 0) (fun _ => 0) lockedProg) tr s ∧ (s.thr i).prog = .update x c k ∧
    ¬ Race s i := by
  obtain ⟨tr, s0, s1, s2, he, h1, h2, _, hp⟩ := lockedProg_run
  exact ⟨_, s2, false, _, _, _, .snoc false (.snoc true he h1) h2, hp,
    C99_lock _ _ lockedProg lockedProg_all (.snoc false (.snoc true he h1) h2) false _ _ _ hp⟩

example : ∃ s2 : MState Bool Unit Bool Int Int, 3 ≤ (s2.thr false).view (.inr true) := by
  obtain ⟨tr, s0, s1, s2, he, h1, h2, hv, _⟩ := lockedProg_run
  exact ⟨s2, hv ▸ C99_lock_publish h1 .nil h2 (.inr true)⟩

example : RaceFree (fun _ => 0) (fun _ => 0) (fun _ : Unit => lockedProg true) := C99_alone _ _ _

end Verif.Atomics
