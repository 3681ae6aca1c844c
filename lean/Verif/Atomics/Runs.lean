import Verif.Atomics.Spec

/-!
# Executions used as concrete cases beside the theorems
-/

namespace Verif.Atomics

/-- all threads have finished their programs -/
def Finished {ι V T : Type} (s : State ι V T) : Prop := ∀ i, (s.thr i).todo = []

/-- two threads with one update each -/
def two {V T : Type} (a b : Op V T) : Bool → List (Op V T) := fun i => if i then [a] else [b]

/-- strong and weak compare-exchange; the first attempt of the strong one fails -/
theorem casRun : ∃ tr s, Exec true (init (fun _ : Unit => (0 : Int))
      (two ⟨.strong, (), binary (· + 1)⟩ ⟨.weak, (), binary (· + 10)⟩)) tr s ∧ Finished s ∧ s.cur () = 11 ∧
      Event.fail true ∈ tr := by
  refine ⟨_, _, .snoc true (.snoc true (.snoc false (.snoc false (.snoc true .nil
    (.load ⟨.strong, (), binary (· + 1)⟩ [] 0 rfl (.inl rfl) (.inl rfl)))
    (.load ⟨.weak, (), binary (· + 10)⟩ [] 0 rfl (.inr rfl) (.inl rfl)))
    (.casOk ⟨.weak, (), binary (· + 10)⟩ [] 0 rfl rfl))
    (.casFail ⟨.strong, (), binary (· + 1)⟩ [] 0 10 rfl (.inl rfl) (by simp)))
    (.casOk ⟨.strong, (), binary (· + 1)⟩ [] 10 rfl rfl), ?_, rfl, by simp⟩
  intro i; cases i <;> rfl

/-- two strong compare-exchanges; the first attempt of one fails -/
theorem strongRun : ∃ tr s, Exec true (init (fun _ : Unit => (0 : Int))
      (two ⟨.strong, (), binary (· + 1)⟩ ⟨.strong, (), binary (· + 10)⟩)) tr s ∧ Finished s ∧ s.cur () = 11 ∧
      Event.fail true ∈ tr := by
  refine ⟨_, _, .snoc true (.snoc true (.snoc false (.snoc false (.snoc true .nil
    (.load ⟨.strong, (), binary (· + 1)⟩ [] 0 rfl (.inl rfl) (.inl rfl)))
    (.load ⟨.strong, (), binary (· + 10)⟩ [] 0 rfl (.inl rfl) (.inl rfl)))
    (.casOk ⟨.strong, (), binary (· + 10)⟩ [] 0 rfl rfl))
    (.casFail ⟨.strong, (), binary (· + 1)⟩ [] 0 10 rfl (.inl rfl) (by simp)))
    (.casOk ⟨.strong, (), binary (· + 1)⟩ [] 10 rfl rfl), ?_, rfl, by simp⟩
  intro i; cases i <;> rfl

/-- one thread adding alone, the other without a program -/
theorem aloneRun : ∃ tr s, Exec true (init (fun _ : Unit => (0 : Int))
      (fun i : Bool => if i then [⟨.strong, (), binary (· + 1)⟩, ⟨.native, (), binary (· + 2)⟩] else [])) tr s ∧
      Finished s ∧ s.cur () = 3 := by
  refine ⟨_, _, .snoc true (.snoc true (.snoc true (.snoc true .nil
    (.load ⟨.strong, (), binary (· + 1)⟩ [⟨.native, (), binary (· + 2)⟩] 0 rfl (.inl rfl) (.inl rfl)))
    (.casOk ⟨.strong, (), binary (· + 1)⟩ [⟨.native, (), binary (· + 2)⟩] 0 rfl rfl))
    (.fetch ⟨.native, (), binary (· + 2)⟩ [] rfl rfl))
    (.reload ⟨.native, (), binary (· + 2)⟩ [] 3 rfl (.inl rfl)), ?_, rfl⟩
  intro i; cases i <;> rfl

/-- a native addition between its two accesses, and an increment that has returned -/
theorem nativeRun : ∃ tr s, Exec true (init (fun _ : Unit => (0 : Int))
      (two ⟨.native, (), binary (· + 1)⟩ ⟨.unary, (), preOp (· + 1)⟩)) tr s ∧
      (s.thr true).pc = .fetched ∧ (∃ s', Step true s true [.ret true 2] s') ∧ Event.ret false 1 ∈ tr := by
  refine ⟨_, _, .snoc true (.snoc false .nil
    (.unary ⟨.unary, (), preOp (· + 1)⟩ [] rfl rfl))
    (.fetch ⟨.native, (), binary (· + 1)⟩ [] rfl rfl), rfl,
    ⟨_, .reload ⟨.native, (), binary (· + 1)⟩ [] 2 rfl (.inl rfl)⟩, by simp [preOp, init]⟩

/-- two increments -/
theorem unaryRun : ∃ tr s, Exec true (init (fun _ : Unit => (0 : Int))
      (two ⟨.unary, (), preOp (· + 1)⟩ ⟨.unary, (), postOp (· + 1)⟩)) tr s ∧ Finished s ∧ s.cur () = 2 := by
  refine ⟨_, _, .snoc true (.snoc false .nil
    (.unary ⟨.unary, (), postOp (· + 1)⟩ [] rfl rfl))
    (.unary ⟨.unary, (), preOp (· + 1)⟩ [] rfl rfl), ?_, rfl⟩
  intro i; cases i <;> rfl

/-- under the lock scheme -/
theorem lockRun : ∃ tr s, Exec true (init (fun _ : Unit => (0 : Int))
      (two ⟨.lock, (), binary (· + 1)⟩ ⟨.lock, (), binary (· * 10)⟩)) tr s ∧ Finished s ∧ s.cur () = 10 := by
  refine ⟨_, _, .snoc false (.snoc false (.snoc false (.snoc false (.snoc true (.snoc true (.snoc true (.snoc true .nil
    (.acquire ⟨.lock, (), binary (· + 1)⟩ [] rfl rfl rfl))
    (.lockRead ⟨.lock, (), binary (· + 1)⟩ [] rfl))
    (.lockWrite ⟨.lock, (), binary (· + 1)⟩ [] 0 rfl))
    (.release ⟨.lock, (), binary (· + 1)⟩ [] 1 rfl))
    (.acquire ⟨.lock, (), binary (· * 10)⟩ [] rfl rfl rfl))
    (.lockRead ⟨.lock, (), binary (· * 10)⟩ [] rfl))
    (.lockWrite ⟨.lock, (), binary (· * 10)⟩ [] 1 rfl))
    (.release ⟨.lock, (), binary (· * 10)⟩ [] 10 rfl), ?_, rfl⟩
  intro i; cases i <;> rfl

/-- under the lock scheme, one thread inside the critical section and the other waiting -/
theorem lockedRun : ∃ tr s, Exec true (init (fun _ : Unit => (0 : Int))
      (two ⟨.lock, (), binary (· + 1)⟩ ⟨.lock, (), binary (· * 10)⟩)) tr s ∧ ¬ Finished s ∧
      (s.thr true).pc = .lockRead 0 ∧ (s.thr false).todo ≠ [] := by
  refine ⟨_, _, .snoc true (.snoc true .nil
    (.acquire ⟨.lock, (), binary (· + 1)⟩ [] rfl rfl rfl))
    (.lockRead ⟨.lock, (), binary (· + 1)⟩ [] rfl), fun h => ?_, rfl, by simp [State.setThr, init, two]⟩
  have := h false
  simp [State.setThr, init, two] at this

/-- the least of a start value and two arguments -/
theorem minRun : ∃ tr s, Exec true (init (fun _ : Unit => (5 : Int))
      (fun i : Bool => ((if i then [(Scheme.strong, 7)] else [(Scheme.weak, 3)]) : List (Scheme × Int)).map
        fun p => ⟨p.1, (), binary (mineq · p.2)⟩)) tr s ∧ Finished s ∧ s.cur () = 3 := by
  refine ⟨_, _, .snoc false (.snoc false (.snoc true (.snoc true .nil
    (.load ⟨.strong, (), binary (mineq · 7)⟩ [] 5 rfl (.inl rfl) (.inl rfl)))
    (.casOk ⟨.strong, (), binary (mineq · 7)⟩ [] 5 rfl rfl))
    (.load ⟨.weak, (), binary (mineq · 3)⟩ [] 5 rfl (.inr rfl) (.inl rfl)))
    (.casOk ⟨.weak, (), binary (mineq · 3)⟩ [] 5 rfl rfl), ?_, rfl⟩
  intro i; cases i <;> rfl

/-- the greatest of a start value and two arguments -/
theorem maxRun : ∃ tr s, Exec true (init (fun _ : Unit => (5 : Int))
      (fun i : Bool => ((if i then [(Scheme.strong, 7)] else [(Scheme.weak, 3)]) : List (Scheme × Int)).map
        fun p => ⟨p.1, (), binary (maxeq · p.2)⟩)) tr s ∧ Finished s ∧ s.cur () = 7 := by
  refine ⟨_, _, .snoc false (.snoc false (.snoc true (.snoc true .nil
    (.load ⟨.strong, (), binary (maxeq · 7)⟩ [] 5 rfl (.inl rfl) (.inl rfl)))
    (.casOk ⟨.strong, (), binary (maxeq · 7)⟩ [] 5 rfl rfl))
    (.load ⟨.weak, (), binary (maxeq · 3)⟩ [] 7 rfl (.inr rfl) (.inl rfl)))
    (.casOk ⟨.weak, (), binary (maxeq · 3)⟩ [] 7 rfl rfl), ?_, rfl⟩
  intro i; cases i <;> rfl

/-- adding amounts, by a list of schemes and amounts -/
theorem sumRun : ∃ tr s, Exec true (init (fun _ : Unit => (5 : Int))
      (fun i : Bool => ((if i then [(Scheme.unary, 7)] else [(Scheme.weak, 3)]) : List (Scheme × Int)).map
        fun p => ⟨p.1, (), binary (· + p.2)⟩)) tr s ∧ Finished s ∧ s.cur () = 15 := by
  refine ⟨_, _, .snoc false (.snoc false (.snoc true (.snoc false .nil
    (.load ⟨.weak, (), binary (· + 3)⟩ [] 5 rfl (.inr rfl) (.inl rfl)))
    (.unary ⟨.unary, (), binary (· + 7)⟩ [] rfl rfl))
    (.casFail ⟨.weak, (), binary (· + 3)⟩ [] 5 12 rfl (.inl rfl) (by simp)))
    (.casOk ⟨.weak, (), binary (· + 3)⟩ [] 12 rfl rfl), ?_, rfl⟩
  intro i; cases i <;> rfl

end Verif.Atomics
