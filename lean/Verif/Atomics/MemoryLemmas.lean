import Verif.Atomics.Memory
import Mathlib.Tactic.Basic

/-!
# What a step of the memory model leaves and adds
-/

namespace Verif.Atomics

set_option linter.unusedSectionVars false

variable {ι V D T X : Type} [DecidableEq ι] [DecidableEq V] [DecidableEq D]

theorem le_afterLoad (w : View ι V) (x : V) (t : Nat) (m : Msg ι V T) (o : MemOrder) : w ≤ afterLoad w x t m o := by
  unfold afterLoad; exact le_trans le_sup_left le_sup_left

theorem one_le_afterLoad (w : View ι V) (x : V) (t : Nat) (m : Msg ι V T) (o : MemOrder) :
    t ≤ afterLoad w x t m o (.inl x) := by
  simp [afterLoad, View.one, Pi.sup_apply]

theorem msg_le_afterLoad (w : View ι V) (x : V) (t : Nat) (m : Msg ι V T) (o : MemOrder) (h : o.acquires = true) :
    m.view ≤ afterLoad w x t m o := by
  simp [afterLoad, Msg.acquired, h]

theorem msg_le_nextMsg (w : View ι V) (x : V) (t : Nat) (m : Msg ι V T) (o : MemOrder) (new : T) :
    m.view ≤ (nextMsg w x t m o new).view := by
  unfold nextMsg; exact le_trans le_sup_left le_sup_left

theorem view_le_nextMsg (w : View ι V) (x : V) (t : Nat) (m : Msg ι V T) (o : MemOrder) (new : T)
    (h : o.releases = true) : w ≤ (nextMsg w x t m o new).view := by
  unfold nextMsg; simp only [h, if_true]; exact le_trans (le_afterLoad _ _ _ _ _) le_sup_right

theorem le_tick (s : MState ι V D T X) (i : ι) : (s.thr i).view ≤ s.tick i := by
  intro l
  unfold MState.tick
  by_cases h : l = .inr i
  · subst h; simp
  · simp [Function.update_of_ne h]

/-- a step changes only its own thread -/
theorem step_other {s s' : MState ι V D T X} {i j : ι} {a : Act V D T X} (h : MStep s i a s') (hj : j ≠ i) :
    s'.thr j = s.thr j := by
  cases h <;> simp [MState.set, MState.rmw, MState.noteRd, MState.noteWr, MState.push, Function.update_of_ne hj]

/-- a thread forgets nothing -/
theorem step_view {s s' : MState ι V D T X} {i : ι} {a : Act V D T X} (h : MStep s i a s') :
    (s.thr i).view ≤ (s'.thr i).view := by
  cases h <;> simp only [MState.set, MState.rmw, Function.update_self]
  case load h _ _ => rw [h]; exact le_afterLoad _ _ _ _ _
  case casFail h _ _ => rw [h]; exact le_afterLoad _ _ _ _ _
  case reload h _ => rw [h]; exact le_afterLoad _ _ _ _ _
  case casOk h _ => exact le_afterLoad _ _ _ _ _
  case fetch h _ _ => exact le_afterLoad _ _ _ _ _
  case unary h _ _ => exact le_afterLoad _ _ _ _ _
  case lock h _ _ => rw [h]; exact le_sup_left
  case unlock h => rw [h]
  all_goals exact le_tick _ _

theorem step_view_all {s s' : MState ι V D T X} {i : ι} {a : Act V D T X} (h : MStep s i a s') (j : ι) :
    (s.thr j).view ≤ (s'.thr j).view := by
  by_cases hj : j = i
  · subst hj; exact step_view h
  · rw [step_other h hj]

theorem exec_view {s s' : MState ι V D T X} {tr : List (ι × Act V D T X)} (h : MExec s tr s') (j : ι) :
    (s.thr j).view ≤ (s'.thr j).view := by
  induction h with
  | nil => exact le_refl _
  | snoc i _ hs ih => exact le_trans ih (step_view_all hs j)

/-- the values of a variable are kept, and a step adds at most one -/
theorem step_hist {s s' : MState ι V D T X} {i : ι} {a : Act V D T X} (h : MStep s i a s') (x : V) :
    (s'.hist x = s.hist x ∧ (∀ t o, a ≠ .rmw x t o)) ∨
    (∃ t m o new, a = .rmw x t o ∧ s.Newest x t m ∧ s'.hist x = s.hist x ++ [nextMsg (s.thr i).view x t m o new] ∧
      (s'.thr i).view = afterLoad (s.thr i).view x (t + 1) m o) ∨
    (∃ v, a = .plainWrite x ∧ s'.hist x = s.hist x ++ [⟨v, fun _ => 0⟩]) := by
  cases h
  case casOk y c k t m w h hn =>
    by_cases hx : x = y
    · subst hx; right; left
      exact ⟨t, m, _, (c.2.1 m.val).1, rfl, hn, by simp [MState.rmw], by simp [MState.rmw]⟩
    · left; exact ⟨by simp [MState.rmw, Function.update_of_ne hx], by intro t o e; cases e; exact hx rfl⟩
  case fetch y c k t m w h hn' hn =>
    by_cases hx : x = y
    · subst hx; right; left
      exact ⟨t, m, _, (c.2.1 m.val).1, rfl, hn, by simp [MState.rmw], by simp [MState.rmw]⟩
    · left; exact ⟨by simp [MState.rmw, Function.update_of_ne hx], by intro t o e; cases e; exact hx rfl⟩
  case unary y c k t m w h hn' hn =>
    by_cases hx : x = y
    · subst hx; right; left
      exact ⟨t, m, _, (c.2.1 m.val).1, rfl, hn, by simp [MState.rmw], by simp [MState.rmw]⟩
    · left; exact ⟨by simp [MState.rmw, Function.update_of_ne hx], by intro t o e; cases e; exact hx rfl⟩
  case lockWrite y c k old w h hc =>
    by_cases hx : x = y
    · subst hx; right; right
      exact ⟨_, rfl, by simp only [MState.set, MState.noteWr, MState.push, Function.update_self]; rfl⟩
    · left; exact ⟨by simp [MState.set, MState.noteWr, MState.push, Function.update_of_ne hx], by intro t o e; cases e⟩
  case serWrite y c k old w h hc =>
    by_cases hx : x = y
    · subst hx; right; right
      exact ⟨_, rfl, by simp only [MState.set, MState.noteWr, MState.push, Function.update_self]; rfl⟩
    · left; exact ⟨by simp [MState.set, MState.noteWr, MState.push, Function.update_of_ne hx], by intro t o e; cases e⟩
  all_goals
    left
    exact ⟨by simp [MState.set, MState.noteRd, MState.noteWr], by intro t o e; cases e⟩

/-- the newest value and the place of the next one -/
theorem newest_append {s : MState ι V D T X} {x : V} {t : Nat} {m m' : Msg ι V T} {l : List (Msg ι V T)}
    (h : s.Newest x t m) (hl : l = s.hist x ++ [m']) : l[t + 1]? = some m' ∧ l.length = t + 2 := by
  have := h.2
  subst hl
  constructor
  · rw [List.getElem?_append_right (by omega)]
    simp [this]
  · simp [this]

theorem has_step {s s' : MState ι V D T X} {i : ι} {a : Act V D T X} (h : MStep s i a s') {x : V} {t : Nat}
    {m : Msg ι V T} (hm : s.Has x t m) : s'.Has x t m := by
  unfold MState.Has at *
  have hlt : t < (s.hist x).length := (List.getElem?_eq_some_iff.mp hm).1
  rcases step_hist h x with ⟨e, _⟩ | ⟨_, _, _, _, _, _, e, _⟩ | ⟨_, _, e⟩
  · rw [e]; exact hm
  · rw [e, List.getElem?_append_left hlt]; exact hm
  · rw [e, List.getElem?_append_left hlt]; exact hm

/-- the plain accesses of the data are the puts and gets -/
theorem step_data {s s' : MState ι V D T X} {i : ι} {a : Act V D T X} (h : MStep s i a s') (d : D)
    (hp : ∀ v, a ≠ .put d v) :
    s'.wr (.inr d) = s.wr (.inr d) ∧ s'.dat d = s.dat d ∧ ((∀ v, a ≠ .get d v) → s'.rd (.inr d) = s.rd (.inr d)) := by
  cases h
  case put e v k w h hc =>
    have hd : d ≠ e := fun h => hp v (by rw [h])
    refine ⟨?_, ?_, fun _ => ?_⟩ <;> simp [MState.set, MState.noteWr, note, Function.update_of_ne, hd]
  case get e k w h hc =>
    refine ⟨?_, ?_, fun hg => ?_⟩
    · simp [MState.set, MState.noteRd]
    · simp [MState.set, MState.noteRd]
    · have hd : d ≠ e := fun h => hg _ (by rw [h])
      simp [MState.set, MState.noteRd, note, Function.update_of_ne, hd]
  all_goals
    refine ⟨?_, ?_, fun _ => ?_⟩ <;>
      simp [MState.set, MState.rmw, MState.noteRd, MState.noteWr, MState.push, note, Function.update_of_ne]

end Verif.Atomics
