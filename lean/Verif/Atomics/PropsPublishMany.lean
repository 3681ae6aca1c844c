import Verif.Atomics.PropsPublishPair
import Mathlib.Data.Fintype.Card
import Mathlib.Data.Finset.Card

/-!
# C99: many threads, the last to arrive reads what all have written
-/

namespace Verif.Atomics

set_option linter.unusedSectionVars false

variable {ι X : Type} [DecidableEq ι] [Fintype ι]

/-- reads the data of the threads in `l` -/
def readAll : List ι → Prog Unit ι Int X
  | [] => .done
  | j :: l => .get j fun _ => readAll l

/-- thread `i`: writes its datum, increments the counter, and if it was the last to do so, reads the
data of the threads in `l i` -/
def arriver (v : ι → X) (c : ι → Scheme × Used) (l : ι → List ι) (i : ι) : Prog Unit ι Int X :=
  .put i (v i) (.update () ((c i).1, binary (· + 1), (c i).2) fun r => if r = Fintype.card ι then readAll (l i) else .done)

/-- the calls that are enough: they release, and they acquire -/
def Enough (c : Scheme × Used) : Prop :=
  (c.1 = .strong ∨ c.1 = .weak ∨ c.1 = .native) ∧ c.2.order.releases = true ∧
    (c.1 = .native ∨ c.2.order.acquires = true)

/-- how far a thread is; whether its update has taken effect -/
inductive MPhase (v : ι → X) (c : ι → Scheme × Used) (l : ι → List ι) (i : ι) : Bool → MThread ι Unit ι Int X → Prop
  | start (w) : w (.inr i) = 0 → MPhase v c l i false ⟨arriver v c l i, .idle, w⟩
  | ready (w) : 1 ≤ w (.inr i) → MPhase v c l i false
      ⟨.update () ((c i).1, binary (· + 1), (c i).2) fun r => if r = Fintype.card ι then readAll (l i) else .done, .idle, w⟩
  | loaded (w old) : (c i).1 ≠ .native → 1 ≤ w (.inr i) → MPhase v c l i false
      ⟨.update () ((c i).1, binary (· + 1), (c i).2) fun r => if r = Fintype.card ι then readAll (l i) else .done, .loaded old, w⟩
  | fetched (w) : MPhase v c l i true
      ⟨.update () ((c i).1, binary (· + 1), (c i).2) fun r => if r = Fintype.card ι then readAll (l i) else .done, .fetched, w⟩
  | reading (w j r) : (∀ j, 1 ≤ w (.inr j)) → MPhase v c l i true ⟨.get j fun _ => readAll r, .idle, w⟩
  | done (w) : MPhase v c l i true ⟨.done, .idle, w⟩

/-- the threads whose write is known -/
def known (w : View ι Unit) : Finset ι := Finset.univ.filter fun j => 1 ≤ w (.inr j)

theorem known_mono {w w' : View ι Unit} (h : w ≤ w') : known w ⊆ known w' := by
  intro j hj
  simp only [known, Finset.mem_filter, Finset.mem_univ, true_and] at hj ⊢
  exact le_trans hj (h _)

theorem known_all {w : View ι Unit} (h : Fintype.card ι ≤ (known w).card) (j : ι) : 1 ≤ w (.inr j) := by
  have := Finset.eq_univ_of_card (known w) (le_antisymm (Finset.card_le_univ _) h)
  have hj : j ∈ known w := by rw [this]; exact Finset.mem_univ _
  simpa [known] using hj

/-- one more thread is known -/
theorem known_more {w w' : View ι Unit} {i : ι} (h : w ≤ w') (h0 : w (.inr i) = 0) (h1 : 1 ≤ w' (.inr i)) :
    (known w).card + 1 ≤ (known w').card := by
  have hi : i ∉ known w := by simp [known, h0]
  rw [← Finset.card_insert_of_notMem hi]
  refine Finset.card_le_card fun j hj => ?_
  rcases Finset.mem_insert.mp hj with e | e
  · subst e; simpa [known] using h1
  · exact known_mono h e

theorem readAll_phase {v : ι → X} {c : ι → Scheme × Used} {l : ι → List ι} {i : ι} {w : View ι Unit} (r : List ι)
    (h : ∀ j, 1 ≤ w (.inr j)) : MPhase v c l i true ⟨readAll r, .idle, w⟩ := by
  cases r with
  | nil => exact .done _
  | cons j r => exact .reading _ _ _ h

theorem back_phase {v : ι → X} {c : ι → Scheme × Used} {l : ι → List ι} {i : ι} {w : View ι Unit} {r : Int}
    (h : r = Fintype.card ι → ∀ j, 1 ≤ w (.inr j)) :
    MPhase v c l i true ⟨if r = Fintype.card ι then readAll (l i) else .done, .idle, w⟩ := by
  by_cases e : r = Fintype.card ι
  · rw [if_pos e]; exact readAll_phase _ (h e)
  · rw [if_neg e]; exact .done _

/-- what holds in all executions; `S` are the threads whose update has taken effect -/
structure ManyInv (v : ι → X) (c : ι → Scheme × Used) (l : ι → List ι) (s : MState ι Unit ι Int X) (S : Finset ι) : Prop where
  val : ∀ t m, s.Has () t m → m.val = t
  num : ∀ t m, s.Has () t m → t ≤ (known m.view).card
  new : ∀ t m, s.Has () t m → ∀ j, j ∉ S → m.view (.inr j) = 0
  phase : ∀ i, MPhase v c l i (decide (i ∈ S)) (s.thr i)
  oth : ∀ i j, j ∉ S → j ≠ i → (s.thr i).view (.inr j) = 0
  wr : ∀ d j, j ≠ d → s.wr (.inr d) j = 0
  wr1 : ∀ d, s.wr (.inr d) d ≤ 1
  rd : ∀ d, d ∉ S → ∀ j, s.rd (.inr d) j = 0
  dat : ∀ d, (s.thr d).prog ≠ arriver v c l d → s.dat d = v d

theorem manyInv_init (d0 : ι → X) (v : ι → X) (c : ι → Scheme × Used) (l : ι → List ι) :
    ManyInv v c l (minit (fun _ => 0) d0 (arriver v c l)) ∅ where
  val := by
    intro t m h
    rcases t with _ | t <;> simp [MState.Has, minit] at h
    subst h; rfl
  num := by
    intro t m h
    rcases t with _ | t <;> simp [MState.Has, minit] at h
    exact Nat.zero_le _
  new := by
    intro t m h j _
    rcases t with _ | t <;> simp [MState.Has, minit] at h
    subst h; rfl
  phase := by intro i; simpa [minit] using MPhase.start _ rfl
  oth := by intros; rfl
  wr := by intros; rfl
  wr1 := by intros; exact Nat.zero_le _
  rd := by intros; rfl
  dat := by intro d h; exact absurd rfl h

/-- a step that only loads -/
theorem manyInv_load {v : ι → X} {c : ι → Scheme × Used} {l : ι → List ι} {s : MState ι Unit ι Int X} {S : Finset ι}
    (h : ManyInv v c l s S) {i : ι} {t : Nat} {m : Msg ι Unit Int} (hm : s.Has () t m) (o : MemOrder) (p : Prog Unit ι Int X)
    (pc : Pc Int) (hp : MPhase v c l i (decide (i ∈ S)) ⟨p, pc, afterLoad (s.thr i).view () t m o⟩)
    (hd : (s.thr i).prog ≠ arriver v c l i) :
    ManyInv v c l (s.set i p pc (afterLoad (s.thr i).view () t m o)) S where
  val := h.val
  num := h.num
  new := h.new
  phase := by
    intro j
    by_cases hj : j = i
    · subst hj; simpa only [MState.set, Function.update_self] using hp
    · simpa only [MState.set, Function.update_of_ne hj] using h.phase j
  oth := by
    intro k j hj hjk
    by_cases hk : k = i
    · subst hk
      simp only [MState.set, Function.update_self]
      rw [afterLoad_inr (h.new t m hm j hj)]; exact h.oth k j hj hjk
    · simpa only [MState.set, Function.update_of_ne hk] using h.oth k j hj hjk
  wr := h.wr
  wr1 := h.wr1
  rd := h.rd
  dat := by
    intro d hd'
    by_cases hk : d = i
    · subst hk; exact h.dat d hd
    · exact h.dat d (by simpa only [MState.set, Function.update_of_ne hk] using hd')

/-- an update -/
theorem manyInv_rmw {v : ι → X} {c : ι → Scheme × Used} {l : ι → List ι} {s : MState ι Unit ι Int X} {S : Finset ι}
    (h : ManyInv v c l s S) {i : ι} {t : Nat} {m : Msg ι Unit Int} (hm : s.Newest () t m) (o : MemOrder)
    (ho : o.releases = true) (p : Prog Unit ι Int X) (pc : Pc Int) (hi : i ∉ S) (hw : 1 ≤ (s.thr i).view (.inr i))
    (hp : MPhase v c l i true ⟨p, pc, afterLoad (s.thr i).view () (t + 1) m o⟩)
    (hd : (s.thr i).prog ≠ arriver v c l i) :
    ManyInv v c l (s.rmw i () t m o (m.val + 1) p pc) (insert i S) := by
  have hlast : ∀ t' m', (s.rmw i () t m o (m.val + 1) p pc).Has () t' m' →
      s.Has () t' m' ∨ (t' = t + 1 ∧ m' = nextMsg (s.thr i).view () t m o (m.val + 1)) := by
    intro t' m' h'
    unfold MState.Has at h'
    simp only [MState.rmw, Function.update_self] at h'
    have hl := hm.2
    by_cases hlt : t' < (s.hist ()).length
    · rw [List.getElem?_append_left hlt] at h'; exact .inl h'
    · rw [List.getElem?_append_right (by omega)] at h'
      have h0 : t' - (s.hist ()).length = 0 := by
        have := (List.getElem?_eq_some_iff.mp h').1
        simp at this; omega
      rw [h0] at h'
      simp at h'
      exact .inr ⟨by omega, h'.symm⟩
  refine ⟨?_, ?_, ?_, ?_, ?_, h.wr, h.wr1, ?_, ?_⟩
  · intro t' m' h'
    rcases hlast t' m' h' with h' | ⟨rfl, rfl⟩
    · exact h.val t' m' h'
    · simp [nextMsg, h.val t m hm.1]
  · intro t' m' h'
    rcases hlast t' m' h' with h' | ⟨rfl, rfl⟩
    · exact h.num t' m' h'
    · refine le_trans (Nat.add_le_add_right (h.num t m hm.1) 1) (known_more (i := i) (msg_le_nextMsg _ _ _ _ _ _) (h.new t m hm.1 i hi) ?_)
      exact le_trans hw (view_le_nextMsg _ _ _ _ _ _ ho _)
  · intro t' m' h' j hj
    rw [Finset.mem_insert, not_or] at hj
    rcases hlast t' m' h' with h' | ⟨rfl, rfl⟩
    · exact h.new t' m' h' j hj.2
    · rw [nextMsg_inr (h.new t m hm.1 j hj.2), h.oth i j hj.2 hj.1]; simp
  · intro j
    by_cases hj : j = i
    · subst hj; simpa only [MState.rmw, Function.update_self, Finset.mem_insert_self, decide_true] using hp
    · have : decide (j ∈ insert i S) = decide (j ∈ S) := by simp [Finset.mem_insert, hj]
      rw [this]
      simpa only [MState.rmw, Function.update_of_ne hj] using h.phase j
  · intro k j hj hjk
    rw [Finset.mem_insert, not_or] at hj
    by_cases hk : k = i
    · subst hk
      simp only [MState.rmw, Function.update_self]
      rw [afterLoad_inr (h.new t m hm.1 j hj.2)]; exact h.oth k j hj.2 hjk
    · simpa only [MState.rmw, Function.update_of_ne hk] using h.oth k j hj.2 hjk
  · intro d hd j
    rw [Finset.mem_insert, not_or] at hd
    exact h.rd d hd.2 j
  · intro d hd'
    by_cases hk : d = i
    · subst hk; exact h.dat d hd
    · exact h.dat d (by simpa only [MState.rmw, Function.update_of_ne hk] using hd')

theorem manyInv_step {v : ι → X} {c : ι → Scheme × Used} {l : ι → List ι} (hc : ∀ i, Enough (c i))
    {s s' : MState ι Unit ι Int X} {S : Finset ι} {i : ι} {a : Act Unit ι Int X} (h : ManyInv v c l s S)
    (hs : MStep s i a s') : ∃ S', ManyInv v c l s' S' := by
  have hph := h.phase i
  obtain ⟨hsch, hrel, hacq⟩ := hc i
  cases hs
  case put d u k w ht hcl =>
    have hv : (s.thr i).view = w := by rw [ht]
    rw [ht] at hph
    generalize hb : decide (i ∈ S) = b at hph
    cases hph
    rename_i hw
    have hi : i ∉ S := by simpa using hb
    refine ⟨S, h.val, h.num, h.new, ?_, ?_, ?_, ?_, ?_, ?_⟩
    · intro j
      by_cases hj : j = i
      · subst hj
        rw [hb]
        simp only [MState.set, Function.update_self]
        exact .ready _ (by simp [MState.tick])
      · simpa only [MState.set, MState.noteWr, Function.update_of_ne hj] using h.phase j
    · intro k j hj hjk
      by_cases hk : k = i
      · subst hk
        have := h.oth k j hj hjk
        simp only [MState.set, Function.update_self, MState.tick]
        rw [Function.update_of_ne (by simpa using hjk)]; exact this
      · simpa only [MState.set, MState.noteWr, Function.update_of_ne hk] using h.oth k j hj hjk
    · intro d j hj
      simp only [MState.set, MState.noteWr, note]
      by_cases hd : d = i
      · subst hd; rw [Function.update_self, Function.update_of_ne hj]; exact h.wr d j hj
      · rw [Function.update_of_ne (by simpa using hd)]; exact h.wr d j hj
    · intro d
      simp only [MState.set, MState.noteWr, note]
      by_cases hd : d = i
      · subst hd; rw [Function.update_self, Function.update_self, hv, hw]
      · rw [Function.update_of_ne (by simpa using hd)]; exact h.wr1 d
    · exact h.rd
    · intro d hd
      by_cases hk : d = i
      · subst hk; simp [MState.set]
      · have := h.dat d (by simpa only [MState.set, MState.noteWr, Function.update_of_ne hk] using hd)
        simpa only [MState.set, MState.noteWr, Function.update_of_ne hk] using this
  case load x cc k t m w ht hsc hm =>
    have hv : (s.thr i).view = w := by rw [ht]
    have hpr : (s.thr i).prog ≠ arriver v c l i := by rw [ht]; simp [arriver]
    rw [ht] at hph
    generalize hb : decide (i ∈ S) = b at hph
    cases hph
    rename_i hw
    refine ⟨S, ?_⟩
    rw [← hv]
    refine manyInv_load h hm.1 _ _ _ ?_ hpr
    rw [hb]
    refine .loaded _ _ (fun e => ?_) (le_trans (by rw [hv]; exact hw) (le_afterLoad _ _ _ _ _ _))
    rcases hsc with hsc | hsc <;> simp [e] at hsc
  case casFail x cc k old t m w ht hm hne =>
    have hv : (s.thr i).view = w := by rw [ht]
    have hpr : (s.thr i).prog ≠ arriver v c l i := by rw [ht]; simp [arriver]
    rw [ht] at hph
    generalize hb : decide (i ∈ S) = b at hph
    cases hph
    rename_i hn hw
    refine ⟨S, ?_⟩
    rw [← hv]
    refine manyInv_load h hm.1 _ _ _ ?_ hpr
    rw [hb]
    exact .loaded _ _ hn (le_trans (by rw [hv]; exact hw) (le_afterLoad _ _ _ _ _ _))
  case casOk x cc k t m w ht hm =>
    have hv : (s.thr i).view = w := by rw [ht]
    have hpr : (s.thr i).prog ≠ arriver v c l i := by rw [ht]; simp [arriver]
    rw [ht] at hph
    generalize hb : decide (i ∈ S) = b at hph
    cases hph
    rename_i hn hw
    have hi : i ∉ S := by simpa using hb
    have hw' : 1 ≤ (s.thr i).view (.inr i) := by rw [hv]; exact hw
    refine ⟨insert i S, manyInv_rmw h hm _ hrel _ _ hi hw' (back_phase fun e j => ?_) hpr⟩
    have ho : (c i).2.order.acquires = true := by tauto
    refine known_all ?_ j
    have h1 := known_more (i := i) (msg_le_afterLoad (s.thr i).view () (t + 1) m _ ho) (h.new t m hm.1 i hi)
      (le_trans hw' (le_afterLoad _ _ _ _ _ _))
    have h2 := h.num t m hm.1
    have h3 := h.val t m hm.1
    simp only [binary] at e
    omega
  case fetch x cc k t m w ht hsc hm =>
    have hv : (s.thr i).view = w := by rw [ht]
    have hpr : (s.thr i).prog ≠ arriver v c l i := by rw [ht]; simp [arriver]
    rw [ht] at hph
    generalize hb : decide (i ∈ S) = b at hph
    cases hph
    rename_i hw
    have hi : i ∉ S := by simpa using hb
    have hw' : 1 ≤ (s.thr i).view (.inr i) := by rw [hv]; exact hw
    exact ⟨insert i S, manyInv_rmw h hm _ hrel _ _ hi hw' (.fetched _) hpr⟩
  case reload x cc k t m w ht hm =>
    have hv : (s.thr i).view = w := by rw [ht]
    have hpr : (s.thr i).prog ≠ arriver v c l i := by rw [ht]; simp [arriver]
    rw [ht] at hph
    generalize hb : decide (i ∈ S) = b at hph
    cases hph
    refine ⟨S, ?_⟩
    rw [← hv]
    refine manyInv_load h hm.1 _ _ _ ?_ hpr
    rw [hb]
    refine back_phase fun e j => ?_
    refine known_all ?_ j
    have h1 := Finset.card_le_card (known_mono (msg_le_afterLoad (s.thr i).view () t m .seqCst rfl))
    have h2 := h.num t m hm.1
    have h3 := h.val t m hm.1
    omega
  case get d k w ht hcl =>
    have hv : (s.thr i).view = w := by rw [ht]
    have hpr : (s.thr i).prog ≠ arriver v c l i := by rw [ht]; simp [arriver]
    rw [ht] at hph
    generalize hb : decide (i ∈ S) = b at hph
    cases hph
    rename_i r hall
    have hi : i ∈ S := by simpa using hb
    have hS : ∀ j, j ∈ S := by
      intro j
      by_contra hj
      have := h.oth i j hj (fun e => hj (e ▸ hi))
      have := hall j
      rw [← hv] at this
      omega
    refine ⟨S, h.val, h.num, h.new, ?_, ?_, h.wr, h.wr1, ?_, ?_⟩
    · intro j
      by_cases hj : j = i
      · subst hj
        rw [hb]
        simp only [MState.set, Function.update_self]
        exact readAll_phase _ fun k => le_trans (hall k) (by rw [← hv]; exact le_tick _ _ _)
      · simpa only [MState.set, MState.noteRd, Function.update_of_ne hj] using h.phase j
    · intro k j hj; exact absurd (hS j) hj
    · intro d hd; exact absurd (hS d) hd
    · intro d' hd'
      by_cases hk : d' = i
      · subst hk; exact h.dat _ hpr
      · exact h.dat d' (by simpa only [MState.set, MState.noteRd, Function.update_of_ne hk] using hd')
  case unary x cc k t m w ht hsc hnew =>
    rw [ht] at hph
    generalize decide (i ∈ S) = b at hph
    cases hph
    simp at hsc; rw [hsc] at hsch; simp at hsch
  case lock x cc k w ht hsc hm =>
    rw [ht] at hph
    generalize decide (i ∈ S) = b at hph
    cases hph
    simp at hsc; rw [hsc] at hsch; simp at hsch
  case serRead x cc k t m w ht hsc _ _ =>
    rw [ht] at hph
    generalize decide (i ∈ S) = b at hph
    cases hph
    simp at hsc; rw [hsc] at hsch; simp at hsch
  case lockRead ht _ _ => rw [ht] at hph; generalize decide (i ∈ S) = b at hph; cases hph
  case lockWrite ht _ => rw [ht] at hph; generalize decide (i ∈ S) = b at hph; cases hph
  case unlock ht => rw [ht] at hph; generalize decide (i ∈ S) = b at hph; cases hph
  case serWrite ht _ => rw [ht] at hph; generalize decide (i ∈ S) = b at hph; cases hph

theorem manyInv_exec (d0 : ι → X) (v : ι → X) (c : ι → Scheme × Used) (l : ι → List ι) (hc : ∀ i, Enough (c i))
    {tr : List (ι × Act Unit ι Int X)} {s : MState ι Unit ι Int X}
    (he : MExec (minit (fun _ => 0) d0 (arriver v c l)) tr s) :
    (∃ S, ManyInv v c l s S) ∧ ∀ i d r, (i, Act.get d r) ∈ tr → r = v d := by
  induction he with
  | nil => exact ⟨⟨∅, manyInv_init d0 v c l⟩, by simp⟩
  | @snoc tr s1 s2 act i _ hst ih =>
    obtain ⟨⟨S, hi⟩, hv⟩ := ih
    refine ⟨manyInv_step hc hi hst, fun j d r hj => ?_⟩
    rw [List.mem_append] at hj
    rcases hj with hj | hj
    · exact hv j d r hj
    · simp at hj
      obtain ⟨rfl, rfl⟩ := hj
      cases hst
      case get k w ht hcl =>
        have hph := hi.phase j
        have hview : (s1.thr j).view = w := by rw [ht]
        rw [ht] at hph
        generalize hb : decide (j ∈ S) = b at hph
        cases hph
        rename_i r hall
        have hj' : j ∈ S := by simpa using hb
        have hd : d ∈ S := by
          by_contra hd
          have := hi.oth j d hd (fun e => hd (e ▸ hj'))
          have := hall d
          rw [← hview] at this
          omega
        refine hi.dat d fun e => ?_
        have hp := hi.phase d
        rw [decide_eq_true hd] at hp
        revert e
        generalize s1.thr d = th at hp ⊢
        cases hp <;> simp [arriver]

/-- **C99** Any number of threads each write a datum of their own and then increment a common
counter, with any mixture of the `strong`, `weak` and `cpp` schemes and any orders that release and
(except under `cpp`) acquire, such as the default; whoever finds that all have arrived reads the
data of the others.  No execution has a data race, and every value read is the one its thread has
written. -/
theorem C99_last_arrival (d0 : ι → X) (v : ι → X) (c : ι → Scheme × Used) (l : ι → List ι) (hc : ∀ i, Enough (c i)) :
    RaceFree (fun _ => 0) d0 (arriver v c l) ∧
    ∀ tr s i d r, MExec (minit (fun _ => 0) d0 (arriver v c l)) tr s → (i, Act.get d r) ∈ tr → r = v d := by
  refine ⟨fun tr s i he hrace => ?_, fun tr s i d r he hg => (manyInv_exec d0 v c l hc he).2 i d r hg⟩
  obtain ⟨⟨S, hi⟩, -⟩ := manyInv_exec d0 v c l hc he
  have hph := hi.phase i
  have hv : ∀ th, s.thr i = th → (s.thr i).view = th.view := fun th e => by rw [e]
  generalize hb : decide (i ∈ S) = b at hph
  cases hrace
  case put d u k w ht hcl =>
    have hview := hv _ ht
    rw [ht] at hph; cases hph
    have hi' : i ∉ S := by simpa using hb
    refine hcl ⟨fun j => ?_, fun _ j => ?_⟩
    · by_cases hj : j = i
      · subst hj; exact (ownInv_exec he).wr _ _
      · rw [hi.wr i j hj]; exact Nat.zero_le _
    · rw [hi.rd i hi' j]; exact Nat.zero_le _
  case get d k w ht hcl =>
    have hview := hv _ ht
    rw [ht] at hph; cases hph
    rename_i r hall
    refine hcl ⟨fun j => ?_, by simp⟩
    by_cases hj : j = d
    · subst hj; rw [hview]; exact le_trans (hi.wr1 j) (hall j)
    · rw [hi.wr d j hj]; exact Nat.zero_le _
  case serRead x cc k w ht hsc _ =>
    rw [ht] at hph; cases hph
    have := (hc i).1
    simp at hsc; rw [hsc] at this; simp at this
  case lockRead ht _ => rw [ht] at hph; cases hph
  case lockWrite ht _ => rw [ht] at hph; cases hph
  case serWrite ht _ => rw [ht] at hph; cases hph

/-- five threads with different schemes -/
example : RaceFree (fun _ => 0) (fun _ => 0) (arriver (fun i : Fin 5 => (i.val : Int) * 10)
    (fun i => if i = 0 then (.native, .rmw .release) else if i = 1 then (.weak, .cas2 .acqRel .relaxed) else (.strong, .cas .seqCst))
    (fun i => if i = 0 then [1, 2, 3, 4] else [0])) := by
  refine (C99_last_arrival _ _ _ _ fun i => ?_).1
  unfold Enough
  by_cases h0 : i = 0
  · simp [h0, Used.order, MemOrder.releases]
  · by_cases h1 : i = 1
    · simp [h1, Used.order, MemOrder.releases, MemOrder.acquires]
    · simp [h0, h1, Used.order, MemOrder.releases, MemOrder.acquires]

/-- the last one of two does get to read -/
example : ∃ tr s, MExec (minit (fun _ => 0) (fun _ => 0) (arriver (fun i : Bool => if i then (7 : Int) else 8)
    (fun _ => (.strong, .cas .acqRel)) (fun i => [!i]))) tr s ∧ (false, Act.get true 7) ∈ tr := by
  refine ⟨_, _, .snoc false (.snoc false (.snoc false (.snoc true (.snoc true (.snoc false (.snoc true .nil
    (.put true 7 _ _ rfl ⟨by simp [minit], by simp [minit]⟩))
    (.put false 8 _ _ rfl ⟨by intro j; simp [minit, MState.set, MState.noteWr, note], by intro _ j; simp [minit, MState.set, MState.noteWr]⟩))
    (.load () (.strong, binary (· + 1), .cas .acqRel) _ 0 ⟨0, fun _ => 0⟩ _ rfl (.inl rfl) ⟨rfl, ?_⟩))
    (.casOk () (.strong, binary (· + 1), .cas .acqRel) _ 0 ⟨0, fun _ => 0⟩ _ rfl ⟨rfl, rfl⟩))
    (.load () (.strong, binary (· + 1), .cas .acqRel) _ 1 _ _ rfl (.inl rfl) ⟨rfl, ?_⟩))
    (.casOk () (.strong, binary (· + 1), .cas .acqRel) _ 1 _ _ rfl ⟨rfl, rfl⟩))
    (.get true (fun _ => .done) _ rfl ⟨?_, ?_⟩), ?_⟩
  · simp [MState.set, MState.noteWr, MState.tick, minit]
  · simp [MState.rmw, MState.set, MState.noteWr, MState.tick, minit]
  · intro j
    cases j <;> simp [MState.rmw, MState.set, MState.noteWr, MState.tick, note, minit, nextMsg, afterLoad, View.one, Msg.acquired,
      Used.order, MemOrder.acquires, MemOrder.releases]
  · simp
  · simp [MState.rmw, MState.set, MState.noteWr]

end Verif.Atomics
