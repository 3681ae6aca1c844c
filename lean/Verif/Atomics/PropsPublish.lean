import Verif.Atomics.MemoryLemmas
import Verif.Atomics.PropsCalls

/-!
# C99: handing plain data from one thread to another through an update
-/

namespace Verif.Atomics

set_option linter.unusedSectionVars false

section
variable {ι V D T X : Type} [DecidableEq ι] [DecidableEq V] [DecidableEq D]

/-- the step reads value number `t` of `x`, or a later one, and acquires what it passes on -/
def AcquiresFrom (a : Act V D T X) (x : V) (t : Nat) : Prop :=
  ∃ t' o, t ≤ t' ∧ o.acquires = true ∧ (a = .load x t' o ∨ a = .rmw x t' o)

/-- an acquiring step learns what the value it reads passes on -/
theorem acquired_le {s s' : MState ι V D T X} {i : ι} {a : Act V D T X} (h : MStep s i a s') {x : V} {t : Nat}
    {o : MemOrder} (ho : o.acquires = true) (ha : a = .load x t o ∨ a = .rmw x t o) :
    ∃ m, s.Has x t m ∧ m.view ≤ (s'.thr i).view := by
  cases h
  case load y c k t' m w h _ hr =>
    rcases ha with e | e <;> cases e
    exact ⟨m, hr.1, by simp only [MState.set, Function.update_self]; exact msg_le_afterLoad _ _ _ _ _ ho⟩
  case casFail y c k old t' m w h hr _ =>
    rcases ha with e | e <;> cases e
    exact ⟨m, hr.1, by simp only [MState.set, Function.update_self]; exact msg_le_afterLoad _ _ _ _ _ ho⟩
  case reload y c k t' m w h hr =>
    rcases ha with e | e <;> cases e
    exact ⟨m, hr.1, by simp only [MState.set, Function.update_self]; exact msg_le_afterLoad _ _ _ _ _ ho⟩
  case casOk y c k t' m w h hn =>
    rcases ha with e | e <;> cases e
    exact ⟨m, hn.1, by simp only [MState.rmw, Function.update_self]; exact msg_le_afterLoad _ _ _ _ _ ho⟩
  case fetch y c k t' m w h _ hn =>
    rcases ha with e | e <;> cases e
    exact ⟨m, hn.1, by simp only [MState.rmw, Function.update_self]; exact msg_le_afterLoad _ _ _ _ _ ho⟩
  case unary y c k t' m w h _ hn =>
    rcases ha with e | e <;> cases e
    exact ⟨m, hn.1, by simp only [MState.rmw, Function.update_self]; exact msg_le_afterLoad _ _ _ _ _ ho⟩
  all_goals rcases ha with e | e <;> cases e

/-- all values of `x` after number `t` pass on at least `W` -/
def Passed (s : MState ι V D T X) (x : V) (t : Nat) (W : View ι V) : Prop :=
  t + 2 ≤ (s.hist x).length ∧ ∀ t' m, t < t' → s.Has x t' m → W ≤ m.view

theorem passed_step {s s' : MState ι V D T X} {i : ι} {a : Act V D T X} {x : V} {t : Nat} {W : View ι V}
    (h : MStep s i a s') (hp : Passed s x t W) (hx : a ≠ .plainWrite x) : Passed s' x t W := by
  obtain ⟨hl, hm⟩ := hp
  rcases step_hist h x with ⟨e, _⟩ | ⟨t1, m1, o, new, _, hn, e, _⟩ | ⟨_, e, _⟩
  · exact ⟨by rw [e]; exact hl, fun t' m ht h' => hm t' m ht (by unfold MState.Has at *; rw [← e]; exact h')⟩
  · refine ⟨by rw [e]; simp; omega, fun t' m ht h' => ?_⟩
    unfold MState.Has at h'
    rw [e] at h'
    by_cases hlt : t' < (s.hist x).length
    · rw [List.getElem?_append_left hlt] at h'
      exact hm t' m ht h'
    · rw [List.getElem?_append_right (by omega)] at h'
      have : t' - (s.hist x).length = 0 := by
        have := (List.getElem?_eq_some_iff.mp h').1
        simp at this; omega
      rw [this] at h'
      simp at h'
      subst h'
      refine le_trans (hm t1 m1 ?_ hn.1) (msg_le_nextMsg _ _ _ _ _ _)
      have := hn.2
      omega
  · exact absurd e hx

theorem passed_exec {s s' : MState ι V D T X} {tr : List (ι × Act V D T X)} {x : V} {t : Nat} {W : View ι V}
    (h : MExec s tr s') (hp : Passed s x t W) (hx : ∀ j, (j, Act.plainWrite x) ∉ tr) : Passed s' x t W := by
  induction h with
  | nil => exact hp
  | snoc i _ hs ih =>
    refine passed_step hs (ih fun j hj => hx j (by simp [hj])) fun e => ?_
    subst e
    exact hx i (by simp)

/-- a releasing update passes on what its thread knew -/
theorem passed_start {s s' : MState ι V D T X} {i : ι} {x : V} {t : Nat} {o : MemOrder}
    (h : MStep s i (.rmw x t o) s') (ho : o.releases = true) : Passed s' x t (s.thr i).view := by
  rcases step_hist h x with ⟨_, e⟩ | ⟨t1, m1, o1, new, e1, hn, e, _⟩ | ⟨_, e, _⟩
  · exact absurd rfl (e t o)
  · cases e1
    have hn2 := hn.2
    refine ⟨by rw [e]; simp; omega, fun t' m ht h' => ?_⟩
    unfold MState.Has at h'
    rw [e, List.getElem?_append_right (by omega)] at h'
    have : t' - (s.hist x).length = 0 := by
      have := (List.getElem?_eq_some_iff.mp h').1
      simp at this; omega
    rw [this] at h'
    simp at h'
    subst h'
    exact view_le_nextMsg _ _ _ _ _ _ ho
  · cases e

/-- **C99** A thread that updates an atomic variable with a releasing order (the default is one)
hands on everything it has done and knows to every thread that later reads the value it stored, or
any later value of the variable, with an acquiring order, in whatever way the updates in between
were done. -/
theorem C99_publish {s0 s1 s2 s3 : MState ι V D T X} {a b : ι} {x : V} {t : Nat} {o : MemOrder} {l : Act V D T X}
    {tr : List (ι × Act V D T X)} (ha : MStep s0 a (.rmw x t o) s1) (ho : o.releases = true)
    (he : MExec s1 tr s2) (hx : ∀ j, (j, Act.plainWrite x) ∉ tr) (hb : MStep s2 b l s3)
    (hl : AcquiresFrom l x (t + 1)) : (s0.thr a).view ≤ (s3.thr b).view := by
  obtain ⟨t', o', ht, ho', hl⟩ := hl
  obtain ⟨m, hm, hv⟩ := acquired_le hb ho' hl
  exact le_trans ((passed_exec he (passed_start ha ho) hx).2 t' m (by omega) hm) hv

theorem exec_data {s s' : MState ι V D T X} {tr : List (ι × Act V D T X)} (h : MExec s tr s') (d : D)
    (hp : ∀ j v, (j, Act.put d v) ∉ tr) :
    s'.wr (.inr d) = s.wr (.inr d) ∧ s'.dat d = s.dat d ∧
      ((∀ j v, (j, Act.get d v) ∉ tr) → s'.rd (.inr d) = s.rd (.inr d)) := by
  induction h with
  | nil => exact ⟨rfl, rfl, fun _ => rfl⟩
  | @snoc tr s1 s2 a i _ hs ih =>
    obtain ⟨i1, i2, i3⟩ := ih fun j v hj => hp j v (by simp [hj])
    obtain ⟨j1, j2, j3⟩ := step_data hs d fun v e => hp i v (by simp [e])
    refine ⟨j1.trans i1, j2.trans i2, fun hg => ?_⟩
    rw [j3 fun v e => hg i v (by simp [e]), i3 fun j v hj => hg j v (by simp [hj])]

/-- **C99** Plain data `d` that a thread has written (or has seen written) before a releasing
update can be read, without a data race and with the value it had then, by every thread that has
acquired from that update, as long as nobody writes it; and it can be written, if nobody has
read it in the meantime either. -/
theorem C99_data {s0 s1 s2 s3 s4 : MState ι V D T X} {a b : ι} {x : V} {t : Nat} {o : MemOrder} {l : Act V D T X}
    {d : D} {tr tr' : List (ι × Act V D T X)} (ha : MStep s0 a (.rmw x t o) s1) (ho : o.releases = true)
    (he : MExec s1 tr s2) (hx : ∀ j, (j, Act.plainWrite x) ∉ tr) (hb : MStep s2 b l s3)
    (hl : AcquiresFrom l x (t + 1)) (he' : MExec s3 tr' s4) (w : Bool) (hd : s0.Clear a (.inr d) w)
    (hp : ∀ j v, (j, Act.put d v) ∉ tr ∧ (j, Act.put d v) ∉ tr')
    (hg : w = true → ∀ j v, (j, Act.get d v) ∉ tr ∧ (j, Act.get d v) ∉ tr') :
    s4.Clear b (.inr d) w ∧ s4.dat d = s0.dat d := by
  have hle := le_trans (C99_publish ha ho he hx hb hl) (exec_view he' b)
  obtain ⟨p1, p2, p3⟩ := step_data ha d (by intro v e; cases e)
  obtain ⟨q1, q2, q3⟩ := exec_data he d fun j v => (hp j v).1
  obtain ⟨t', o', _, _, hl'⟩ := hl
  obtain ⟨r1, r2, r3⟩ := step_data hb d (by rintro v e; rcases hl' with h | h <;> rw [h] at e <;> cases e)
  obtain ⟨u1, u2, u3⟩ := exec_data he' d fun j v => (hp j v).2
  refine ⟨⟨fun j => ?_, fun hw j => ?_⟩, by rw [u2, r2, q2, p2]⟩
  · rw [u1, r1, q1, p1]; exact le_trans (hd.1 j) (hle _)
  · rw [u3 fun j v => (hg hw j v).2, r3 (by rintro v e; rcases hl' with h | h <;> rw [h] at e <;> cases e),
      q3 fun j v => (hg hw j v).1, p3 (by intro v e; cases e)]
    exact le_trans (hd.2 hw j) (hle _)

/-- a load never goes back behind what its thread knows -/
theorem load_coherent {s s' : MState ι V D T X} {i : ι} {x : V} {t : Nat} {o : MemOrder}
    (h : MStep s i (.load x t o) s') : (s.thr i).view (.inl x) ≤ t := by
  cases h
  case load h _ hr => exact hr.2
  case casFail => exact (‹s.MayRead i x t _›).2
  case reload h hr => exact hr.2

/-- **C99** Under the `cpp` scheme the acquiring side may use any order at all, even a relaxed one:
the load by which the call gets the value it returns comes after the update and has the default
order. -/
theorem C99_cpp {s0 s1 s2 s3 s4 s5 : MState ι V D T X} {a b : ι} {x : V} {t t1 t2 : Nat} {o o1 : MemOrder}
    {tr tr' : List (ι × Act V D T X)} (ha : MStep s0 a (.rmw x t o) s1) (ho : o.releases = true)
    (he : MExec s1 tr s2) (hb : MStep s2 b (.rmw x t1 o1) s3)
    (he' : MExec s3 tr' s4) (hb' : MStep s4 b (.load x t2 .seqCst) s5)
    (hx : ∀ j, (j, Act.plainWrite x) ∉ tr ∧ (j, Act.plainWrite x) ∉ tr') : (s0.thr a).view ≤ (s5.thr b).view := by
  obtain ⟨m, hm, hv⟩ := acquired_le hb' (o := .seqCst) rfl (.inl rfl)
  have h2 := passed_exec he (passed_start ha ho) fun j => (hx j).1
  have h4 := passed_exec he' (passed_step hb h2 (by intro e; cases e)) fun j => (hx j).2
  refine le_trans (h4.2 t2 m ?_ hm) hv
  refine lt_of_lt_of_le ?_ (le_trans (exec_view he' b _) (load_coherent hb'))
  rcases step_hist hb x with ⟨_, e⟩ | ⟨t', m', o', new, e1, hn, _, e⟩ | ⟨_, e, _⟩
  · exact absurd rfl (e t1 o1)
  · cases e1
    rw [e]
    have := one_le_afterLoad (s2.thr b).view x (t1 + 1) m' o1
    have := hn.2
    have := h2.1
    omega
  · cases e

end

end Verif.Atomics
