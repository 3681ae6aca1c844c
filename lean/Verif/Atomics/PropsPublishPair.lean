import Verif.Atomics.PropsPublishLock

/-!
# C99: one thread hands data to another: exactly which schemes and orders are enough
-/

namespace Verif.Atomics

set_option linter.unusedSectionVars false

section
variable {ι V D T X : Type} [DecidableEq ι] [DecidableEq V] [DecidableEq D]

theorem exec_trans {s1 s2 s3 : MState ι V D T X} {tr tr' : List (ι × Act V D T X)} (h : MExec s1 tr s2)
    (h' : MExec s2 tr' s3) : MExec s1 (tr ++ tr') s3 := by
  induction h' with
  | nil => simpa using h
  | snoc i _ hs ih => rw [← List.append_assoc]; exact .snoc i ih hs

theorem acquired_inr {m : Msg ι V T} {j : ι} (h : m.view (.inr j) = 0) (o : MemOrder) : m.acquired o (.inr j) = 0 := by
  unfold Msg.acquired; split <;> simp [h]

theorem afterLoad_inr {w : View ι V} {x : V} {t : Nat} {m : Msg ι V T} {o : MemOrder} {j : ι}
    (h : m.view (.inr j) = 0) : afterLoad w x t m o (.inr j) = w (.inr j) := by
  simp [afterLoad, View.one, acquired_inr h]

theorem nextMsg_inr {w : View ι V} {x : V} {t : Nat} {m : Msg ι V T} {o : MemOrder} {new : T} {j : ι}
    (h : m.view (.inr j) = 0) :
    (nextMsg w x t m o new).view (.inr j) = if o.releases then w (.inr j) else 0 := by
  unfold nextMsg
  by_cases ho : o.releases = true
  · simp [ho, View.one, h, afterLoad_inr h]
  · simp [ho, View.one, h]

theorem afterLoad_inl {w : View ι V} {x : V} {t : Nat} {m : Msg ι V T} {o : MemOrder} (hw : w (.inl x) ≤ t)
    (hm : m.view (.inl x) ≤ t) : afterLoad w x t m o (.inl x) ≤ t := by
  simp only [afterLoad, View.one, Pi.sup_apply, if_true]
  refine sup_le (sup_le hw (le_refl _)) ?_
  unfold Msg.acquired
  split
  · exact hm
  · exact Nat.zero_le _

theorem nextMsg_inl {w : View ι V} {x : V} {t : Nat} {m : Msg ι V T} {o : MemOrder} {new : T} (hw : w (.inl x) ≤ t)
    (hm : m.view (.inl x) ≤ t) : (nextMsg w x t m o new).view (.inl x) ≤ t + 1 := by
  simp only [nextMsg, View.one, Pi.sup_apply, if_true]
  refine sup_le (sup_le (by omega) (le_refl _)) ?_
  split
  · exact afterLoad_inl (by omega) (by omega)
  · exact Nat.zero_le _

/-- an update that nobody interrupts -/
theorem solo {s : MState ι V D T X} {i : ι} {x : V} {g : T → T} {u : Used} {sc : Scheme} {k : T → Prog V D T X}
    {w : View ι V} {t : Nat} {m : Msg ι V T} (ht : s.thr i = ⟨.update x (sc, binary g, u) k, .idle, w⟩)
    (hc : sc = .strong ∨ sc = .weak ∨ sc = .native) (hn : s.Newest x t m) (hw : w (.inl x) ≤ t)
    (hmv : m.view (.inl x) ≤ t) :
    ∃ tr s' m' w', MExec s tr s' ∧ s'.hist x = s.hist x ++ [m'] ∧ m'.val = g m.val ∧ m'.view (.inl x) ≤ t + 1 ∧
      (∀ j, m.view (.inr j) = 0 → m'.view (.inr j) = if u.order.releases then w (.inr j) else 0) ∧
      s'.thr i = ⟨k (g m.val), .idle, w'⟩ ∧ (∀ j, m.view (.inr j) = 0 → w' (.inr j) = w (.inr j)) ∧
      (∀ j, j ≠ i → s'.thr j = s.thr j) ∧ s'.wr = s.wr := by
  have hmay : s.MayRead i x t m := ⟨hn.1, by rw [ht]; exact hw⟩
  have hv : (s.thr i).view = w := by rw [ht]
  by_cases hcn : sc = .native
  · subst hcn
    have h1 : MStep s i _ _ := .fetch x (.native, binary g, u) k t m w ht rfl hn
    have hap := newest_append (m' := nextMsg (s.thr i).view x t m u.order (g m.val)) hn rfl
    have h2 : MStep _ i _ _ := .reload (s := s.rmw i x t m u.order (g m.val) (.update x (.native, binary g, u) k) .fetched)
      x (.native, binary g, u) k (t + 1) (nextMsg (s.thr i).view x t m u.order (g m.val))
      (afterLoad (s.thr i).view x (t + 1) m u.order) (by simp [MState.rmw])
      ⟨by unfold MState.Has; simp only [MState.rmw, Function.update_self]; exact hap.1, by
        simp only [MState.rmw, Function.update_self]
        exact afterLoad_inl (by rw [hv]; omega) (by omega)⟩
    refine ⟨_, _, nextMsg (s.thr i).view x t m u.order (g m.val), afterLoad (afterLoad (s.thr i).view x (t + 1) m u.order)
      x (t + 1) (nextMsg (s.thr i).view x t m u.order (g m.val)) .seqCst, .snoc i (.snoc i .nil h1) h2,
      ?_, ?_, ?_, fun j hj => ?_, ?_, fun j hj => ?_, fun j hj => ?_, rfl⟩
    · simp [MState.rmw, MState.set]
    · rfl
    · rw [hv]; exact nextMsg_inl hw hmv
    · rw [hv]; exact nextMsg_inr hj
    · simp only [MState.set, Function.update_self]; rfl
    · have e1 : afterLoad (s.thr i).view x (t + 1) m u.order (.inr j) = w (.inr j) := by rw [hv]; exact afterLoad_inr hj
      simp only [afterLoad, Pi.sup_apply] at e1 ⊢
      rw [e1]
      have e2 : (nextMsg (s.thr i).view x t m u.order (g m.val)).acquired .seqCst (.inr j) =
        if u.order.releases then w (.inr j) else 0 := by rw [← hv]; exact nextMsg_inr hj
      rw [e2]
      by_cases ho : u.order.releases = true <;> simp [View.one, ho]
    · simp [MState.set, MState.rmw, Function.update_of_ne hj]
  · have h1 : MStep s i _ _ := .load x (sc, binary g, u) k t m w ht (by tauto) hmay
    have h2 : MStep _ i _ _ := .casOk (s := s.set i (.update x (sc, binary g, u) k) (.loaded m.val) (afterLoad w x t m .seqCst))
      x (sc, binary g, u) k t m (afterLoad w x t m .seqCst) (by simp [MState.set]) hn
    have hv' : ((s.set i (.update x (sc, binary g, u) k) (.loaded m.val) (afterLoad w x t m .seqCst)).thr i).view =
      afterLoad w x t m .seqCst := by simp [MState.set]
    refine ⟨_, _, nextMsg (afterLoad w x t m .seqCst) x t m u.order (g m.val),
      afterLoad (afterLoad w x t m .seqCst) x (t + 1) m u.order, .snoc i (.snoc i .nil h1) h2,
      ?_, ?_, ?_, fun j hj => ?_, ?_, fun j hj => ?_, fun j hj => ?_, rfl⟩
    · simp [MState.set, MState.rmw, binary]
    · rfl
    · exact nextMsg_inl (afterLoad_inl hw hmv) hmv
    · rw [nextMsg_inr hj, afterLoad_inr hj]
    · simp [MState.set, MState.rmw, binary]
    · rw [afterLoad_inr hj, afterLoad_inr hj]
    · simp [MState.set, MState.rmw, Function.update_of_ne hj]

end

/-! ## one producer, one consumer -/

/-- writes the datum, then adds `n` to the flag with the call `ua` -/
def producer (n v : Int) (sa : Scheme) (ua : Used) : Prog Unit Unit Int Int :=
  .put () v (.update () (sa, binary (· + n), ua) fun _ => .done)

/-- adds `p` to the flag with the call `ub`, and if the sum is there, reads the datum -/
def consumer (n p : Int) (sb : Scheme) (ub : Used) : Prog Unit Unit Int Int :=
  .update () (sb, binary (· + p), ub) fun r => if r = n + p then .get () fun _ => .done else .done

/-- thread `true` produces, thread `false` consumes -/
def pair (n v p : Int) (sa sb : Scheme) (ua ub : Used) (i : Bool) : Prog Unit Unit Int Int :=
  if i then producer n v sa ua else consumer n p sb ub

section
variable {ι V D T X : Type} [DecidableEq ι] [DecidableEq V] [DecidableEq D]

/-- a name for the state after a step -/
theorem named {s s' : MState ι V D T X} {i : ι} {a : Act V D T X} (h : MStep s i a s') : ∃ t, t = s' ∧ MStep s i a t :=
  ⟨s', rfl, h⟩

/-- a plain write that nobody else has to know of -/
theorem put_alone {s : MState ι V D T X} {i : ι} {d : D} {v : X} {k : Prog V D T X} {w : View ι V}
    (ht : s.thr i = ⟨.put d v k, .idle, w⟩) (hc : s.Clear i (.inr d) true) :
    ∃ s' w', MStep s i (.put d v) s' ∧ s'.thr i = ⟨k, .idle, w'⟩ ∧ (∀ x, w' (.inl x) = w (.inl x)) ∧
      (∀ j, j ≠ i → w' (.inr j) = w (.inr j)) ∧ w' (.inr i) = w (.inr i) + 1 ∧ s'.hist = s.hist ∧
      s'.wr (.inr d) i = w (.inr i) + 1 ∧ (∀ j, j ≠ i → s'.thr j = s.thr j) := by
  refine ⟨_, s.tick i, .put d v k w ht hc, ?_, ?_, ?_, ?_, rfl, ?_, fun j hj => ?_⟩
  · simp [MState.set]
  · intro x; simp [MState.tick, ht, Function.update_of_ne]
  · intro j hj; simp [MState.tick, ht, Function.update_of_ne, hj]
  · simp [MState.tick, ht]
  · simp [MState.set, MState.noteWr, note, ht]
  · simp [MState.set, MState.noteWr, Function.update_of_ne hj]

end

/-- the sum of both additions is read, but the datum is not known -/
theorem pair_race {s : MState Bool Unit Unit Int Int} {w : View Bool Unit} {r n p : Int} (hr : r = n + p)
    (ht : s.thr false = ⟨if r = n + p then .get () fun _ => .done else .done, .idle, w⟩)
    (hw : w (.inr true) = 0) (hwr : s.wr (.inr ()) true = 1) : Race s false := by
  rw [if_pos hr] at ht
  refine .get () _ w ht fun hc => ?_
  have := hc.1 true
  rw [ht, hwr] at this
  change 1 ≤ w _ at this
  omega

theorem pair_needs_release (n v p : Int) (sa sb : Scheme) (ua ub : Used)
    (ha : sa = .strong ∨ sa = .weak ∨ sa = .native) (hb : sb = .strong ∨ sb = .weak ∨ sb = .native)
    (h : ua.order.releases = false) : ¬ RaceFree (fun _ => 0) (fun _ => 0) (pair n v p sa sb ua ub) := by
  intro hrf
  obtain ⟨s0, w0, e0, ht0, hx0, -, hi0, hh0, hwr0, ho0⟩ := put_alone (s := minit (fun _ => 0) (fun _ => 0) (pair n v p sa sb ua ub))
    (i := true) (w := fun _ => 0) rfl ⟨by simp [minit], by simp [minit]⟩
  obtain ⟨tr1, s1, m1, w1, e1, hh1, hv1, hi1, hm1, ht1, hw1, ho1, hwr1⟩ := solo (t := 0) (m := ⟨0, fun _ => 0⟩) ht0 ha
    (by simp [MState.Newest, MState.Has, hh0, minit]) (by rw [hx0]) (by simp)
  have htf : s1.thr false = ⟨consumer n p sb ub, .idle, fun _ => 0⟩ := by
    rw [ho1 false (by simp), ho0 false (by simp)]; rfl
  have hh1' : s1.hist () = [⟨0, fun _ => 0⟩, m1] := by rw [hh1, hh0]; rfl
  obtain ⟨tr2, s2, m2, w2, e2, hh2, hv2, hi2, hm2, ht2, hw2, ho2, hwr2⟩ := solo (t := 1) (m := m1) htf hb
    (by simp [MState.Newest, MState.Has, hh1']) (by simp) hi1
  have hm10 : m1.view (.inr true) = 0 := by rw [hm1 true rfl]; simp [h]
  refine hrf _ s2 false (exec_trans (exec_trans (.snoc true .nil e0) e1) e2)
    (pair_race (r := m1.val + p) (n := n) (p := p) (by rw [hv1]; simp) ht2 (hw2 true hm10) ?_)
  rw [hwr2, hwr1, hwr0]

theorem pair_needs_acquire (n v p : Int) (hn : n ≠ 0) (sa sb : Scheme) (ua ub : Used)
    (ha : sa = .strong ∨ sa = .weak ∨ sa = .native) (hb : sb = .strong ∨ sb = .weak)
    (h : ub.order.acquires = false) (hf : ub.failOrder.acquires = false) :
    ¬ RaceFree (fun _ => 0) (fun _ => 0) (pair n v p sa sb ua ub) := by
  intro hrf
  obtain ⟨s, hs, e⟩ := named (.load (s := minit (fun _ => 0) (fun _ => 0) (pair n v p sa sb ua ub)) (i := false)
    () (sb, binary (· + p), ub) _ 0 ⟨0, fun _ => 0⟩ (fun _ => 0) rfl hb ⟨rfl, by simp [minit]⟩)
  have hst : s.thr true = ⟨producer n v sa ua, .idle, fun _ => 0⟩ := by subst hs; rfl
  have hsf : s.thr false = ⟨consumer n p sb ub, .loaded 0, afterLoad (fun _ => 0) () 0 ⟨(0 : Int), fun _ => 0⟩ .seqCst⟩ := by
    subst hs; rfl
  have hsh : s.hist () = [⟨0, fun _ => 0⟩] := by subst hs; rfl
  have hcl : s.Clear true (.inr ()) true := by subst hs; exact ⟨by simp [minit, MState.set], by simp [minit, MState.set]⟩
  obtain ⟨s0, w0, e0, ht0, hx0, -, hi0, hh0, hwr0, ho0⟩ := put_alone hst hcl
  obtain ⟨tr1, s1, m1, w1, e1, hh1, hv1, hi1, hm1, ht1, hw1, ho1, hwr1⟩ := solo (t := 0) (m := ⟨0, fun _ => 0⟩) ht0 ha
    (by simp [MState.Newest, MState.Has, hh0, hsh]) (by rw [hx0]) (by simp)
  have htf := ((ho1 false (by simp)).trans (ho0 false (by simp))).trans hsf
  have hh1' : s1.hist () = [⟨0, fun _ => 0⟩, m1] := by rw [hh1, hh0, hsh]; rfl
  have hnew : s1.Newest () 1 m1 := by simp [MState.Newest, MState.Has, hh1']
  obtain ⟨s2, hs2, e2⟩ := named (.casFail () (sb, binary (· + p), ub) _ 0 1 m1 _ htf
    ⟨hnew.1, by rw [htf]; simp [afterLoad, View.one, Msg.acquired]⟩ (by intro _; rw [hv1]; simpa using hn))
  have ht2 : s2.thr false = ⟨consumer n p sb ub, .loaded m1.val, afterLoad (afterLoad (fun _ => 0) () 0 ⟨(0 : Int), fun _ => 0⟩ .seqCst)
      () 1 m1 ub.failOrder⟩ := by subst hs2; simp only [MState.set, Function.update_self]; rfl
  have hnew2 : s2.Newest () 1 m1 := by subst hs2; exact hnew
  obtain ⟨s3, hs3, e3⟩ := named (.casOk () (sb, binary (· + p), ub) _ 1 m1 _ ht2 hnew2)
  refine hrf _ s3 false (.snoc false (.snoc false (exec_trans (exec_trans (.snoc false .nil e) (.snoc true .nil e0)) e1) e2) e3)
    (pair_race (r := m1.val + p) (n := n) (p := p)
      (w := afterLoad (s2.thr false).view () 2 m1 ub.order) (by rw [hv1]; simp) ?_ ?_ ?_)
  · subst hs3; simp only [MState.rmw, Function.update_self]; rfl
  · rw [ht2]
    have e0 : afterLoad (fun _ => 0) () 0 (⟨0, fun _ => 0⟩ : Msg Bool Unit Int) .seqCst (.inr true) = 0 := afterLoad_inr rfl
    simp only [afterLoad, Pi.sup_apply] at e0 ⊢
    rw [e0]
    simp [Msg.acquired, h, hf, View.one]
  · subst hs3; subst hs2
    simp only [MState.rmw, MState.set]
    rw [hwr1, hwr0]

/-- the producer's write happens before -/
def Knows (w : View Bool Unit) : Prop := 1 ≤ w (.inr true)

theorem Knows.mono {w w' : View Bool Unit} (h : Knows w) (hl : w ≤ w') : Knows w' := le_trans h (hl _)

/-- the values of the flag, after which of the two updates; the number of the consumer's value -/
inductive Shape (n p : Int) : Bool → Option Nat → List (Msg Bool Unit Int) → Prop
  | none (m0) : m0.val = 0 → Shape n p false none [m0]
  | a (m0 m1) : m0.val = 0 → m1.val = n → Knows m1.view → Shape n p true none [m0, m1]
  | b (m0 m1) : m0.val = 0 → m1.val = p → Shape n p false (some 1) [m0, m1]
  | ab (m0 m1 m2) : m0.val = 0 → m1.val = n → Knows m1.view → m2.val = n + p → Knows m2.view →
      Shape n p true (some 2) [m0, m1, m2]
  | ba (m0 m1 m2) : m0.val = 0 → m1.val = p → Knows m2.view → Shape n p true (some 1) [m0, m1, m2]

/-- how far the producer is; whether its update has taken effect -/
inductive APhase (n v : Int) (sa : Scheme) (ua : Used) : Bool → MThread Bool Unit Unit Int Int → Prop
  | start (w) : w (.inr true) = 0 → APhase n v sa ua false ⟨producer n v sa ua, .idle, w⟩
  | ready (w) : Knows w → APhase n v sa ua false ⟨.update () (sa, binary (· + n), ua) fun _ => .done, .idle, w⟩
  | loaded (w old) : Knows w → APhase n v sa ua false ⟨.update () (sa, binary (· + n), ua) fun _ => .done, .loaded old, w⟩
  | fetched (w) : APhase n v sa ua true ⟨.update () (sa, binary (· + n), ua) fun _ => .done, .fetched, w⟩
  | done (w) : APhase n v sa ua true ⟨.done, .idle, w⟩

/-- how far the consumer is -/
inductive BPhase (n p : Int) (sb : Scheme) (ub : Used) : Bool → Option Nat → MThread Bool Unit Unit Int Int → Prop
  | start (as w) : BPhase n p sb ub as none ⟨consumer n p sb ub, .idle, w⟩
  | loaded (as w old) : sb ≠ .native → (old = 0 ∨ (Knows w ∨ ub.order.acquires = true)) →
      BPhase n p sb ub as none ⟨consumer n p sb ub, .loaded old, w⟩
  | fetched (as w t) : t ≤ w (.inl ()) → BPhase n p sb ub as (some t) ⟨consumer n p sb ub, .fetched, w⟩
  | got (as w t) : Knows w → as = true → BPhase n p sb ub as (some t) ⟨.get () fun _ => .done, .idle, w⟩
  | done (as w t) : BPhase n p sb ub as (some t) ⟨.done, .idle, w⟩

/-- what holds in all executions of the pair -/
structure PairInv (n v p : Int) (sa sb : Scheme) (ua ub : Used) (s : MState Bool Unit Unit Int Int) (as : Bool)
    (bs : Option Nat) : Prop where
  shape : Shape n p as bs (s.hist ())
  pa : APhase n v sa ua as (s.thr true)
  pb : BPhase n p sb ub as bs (s.thr false)
  wrf : s.wr (.inr ()) false = 0
  wrt : s.wr (.inr ()) true ≤ 1
  rd : as = false → ∀ j, s.rd (.inr ()) j = 0
  dat : (s.thr true).prog ≠ producer n v sa ua → s.dat () = v

theorem BPhase.mono {n p : Int} {sb : Scheme} {ub : Used} {as as' : Bool} {bs : Option Nat}
    {t : MThread Bool Unit Unit Int Int} (h : BPhase n p sb ub as bs t) (ha : as = true → as' = true) :
    BPhase n p sb ub as' bs t := by
  cases h
  case start => exact .start _ _
  case loaded h1 h2 => exact .loaded _ _ _ h1 h2
  case fetched h => exact .fetched _ _ _ h
  case got h1 h2 => exact .got _ _ _ h1 (ha h2)
  case done => exact .done _ _ _

theorem BPhase.back {n p : Int} {sb : Scheme} {ub : Used} {as : Bool} {t : Nat} {r : Int} {w : View Bool Unit}
    (h : r = n + p → Knows w ∧ as = true) :
    BPhase n p sb ub as (some t) ⟨if r = n + p then .get () fun _ => .done else .done, .idle, w⟩ := by
  by_cases e : r = n + p
  · rw [if_pos e]; exact .got _ _ _ (h e).1 (h e).2
  · rw [if_neg e]; exact .done _ _ _

/-- the newest value, by what has happened -/
theorem newest_shape {n p : Int} {as : Bool} {bs : Option Nat} {s : MState Bool Unit Unit Int Int} {t : Nat}
    {m : Msg Bool Unit Int} (h : Shape n p as bs (s.hist ())) (hn : s.Newest () t m) :
    (as = false ∧ bs = none ∧ t = 0 ∧ m.val = 0 ∧ s.hist () = [m]) ∨
    (as = true ∧ bs = none ∧ t = 1 ∧ m.val = n ∧ Knows m.view ∧ ∃ m0, m0.val = 0 ∧ s.hist () = [m0, m]) ∨
    (as = false ∧ bs = some 1 ∧ t = 1 ∧ m.val = p ∧ ∃ m0, m0.val = 0 ∧ s.hist () = [m0, m]) ∨
    (as = true ∧ bs.isSome = true) := by
  obtain ⟨hm, hl⟩ := hn
  unfold MState.Has at hm
  generalize s.hist () = l at *
  cases h
  case none m0 h0 =>
    simp at hl; subst hl; simp at hm; subst hm
    exact .inl ⟨rfl, rfl, rfl, h0, rfl⟩
  case a m0 m1 h0 h1 hk =>
    simp at hl; subst hl; simp at hm; subst hm
    exact .inr (.inl ⟨rfl, rfl, rfl, h1, hk, m0, h0, rfl⟩)
  case b m0 m1 h0 h1 =>
    simp at hl; subst hl; simp at hm; subst hm
    exact .inr (.inr (.inl ⟨rfl, rfl, rfl, h1, m0, h0, rfl⟩))
  case ab => exact .inr (.inr (.inr ⟨rfl, rfl⟩))
  case ba => exact .inr (.inr (.inr ⟨rfl, rfl⟩))

/-- before the consumer's update a load returns the initial value or the producer's -/
theorem load_shape {n p : Int} {as : Bool} {l : List (Msg Bool Unit Int)} {t : Nat} {m : Msg Bool Unit Int}
    (h : Shape n p as none l) (hm : l[t]? = some m) : m.val = 0 ∨ Knows m.view := by
  cases h
  case none m0 h0 =>
    rcases t with _ | t <;> simp at hm
    subst hm; exact .inl h0
  case a m0 m1 h0 h1 hk =>
    rcases t with _ | _ | t <;> simp at hm
    · subst hm; exact .inl h0
    · subst hm; exact .inr hk

/-- from its own value on, the consumer finds the sum only where it learns of the datum -/
theorem reload_shape {n p : Int} (hn : n ≠ 0) {as : Bool} {b : Nat} {l : List (Msg Bool Unit Int)} {t : Nat}
    {m : Msg Bool Unit Int} (h : Shape n p as (some b) l) (hm : l[t]? = some m) (hb : b ≤ t) (hv : m.val = n + p) :
    Knows m.view ∧ as = true := by
  cases h
  case b m0 m1 h0 h1 =>
    rcases t with _ | _ | t
    · omega
    · simp at hm; subst hm; omega
    · simp at hm
  case ab m0 m1 m2 h0 h1 hk h2 hk2 =>
    rcases t with _ | _ | _ | t
    · omega
    · omega
    · simp at hm; subst hm; exact ⟨hk2, rfl⟩
    · simp at hm
  case ba m0 m1 m2 h0 h1 hk =>
    rcases t with _ | _ | _ | t
    · omega
    · simp at hm; subst hm; omega
    · simp at hm; subst hm; exact ⟨hk, rfl⟩
    · simp at hm

theorem pairInv_step {n v p : Int} (hn : n ≠ 0) {sa sb : Scheme} {ua ub : Used}
    (ha : sa = .strong ∨ sa = .weak ∨ sa = .native) (hb : sb = .strong ∨ sb = .weak ∨ sb = .native)
    (hr : ua.order.releases = true) (hq : sb = .native ∨ ub.order.acquires = true ∨ ub.failOrder.acquires = true)
    {s s' : MState Bool Unit Unit Int Int} {i : Bool} {a : Act Unit Unit Int Int} {as : Bool} {bs : Option Nat}
    (h : PairInv n v p sa sb ua ub s as bs) (hs : MStep s i a s') :
    ∃ as' bs', PairInv n v p sa sb ua ub s' as' bs' := by
  obtain ⟨hsh, hpa, hpb, hwf, hwt, hrd, hdat⟩ := h
  have hoth := fun j (hj : j ≠ i) => step_other hs hj
  cases i
  · have hot := hoth true (by simp)
    cases hs
    case load x c k t m w ht hc hm =>
      rw [ht] at hpb; cases hpb
      refine ⟨as, none, by simpa [MState.set] using hsh, by rw [hot]; exact hpa, ?_, hwf, hwt, hrd, by rw [hot]; exact hdat⟩
      simp only [MState.set, Function.update_self]
      refine .loaded _ _ _ (by rintro rfl; rcases hc with h | h <;> cases h) ?_
      rcases load_shape hsh hm.1 with h | h
      · exact .inl h
      · exact .inr (.inl (h.mono (msg_le_afterLoad _ _ _ _ _ rfl)))
    case casFail x c k old t m w ht hm hne =>
      rw [ht] at hpb; cases hpb
      rename_i hsb _
      refine ⟨as, none, by simpa [MState.set] using hsh, by rw [hot]; exact hpa, ?_, hwf, hwt, hrd, by rw [hot]; exact hdat⟩
      simp only [MState.set, Function.update_self]
      refine .loaded _ _ _ hsb ?_
      rcases load_shape hsh hm.1 with h | h
      · exact .inl h
      · rcases hq with hq | hq | hq
        · exact absurd hq hsb
        · exact .inr (.inr hq)
        · exact .inr (.inl (h.mono (msg_le_afterLoad _ _ _ _ _ hq)))
    case casOk x c k t m w ht hnew =>
      have hw : (s.thr false).view = w := by rw [ht]
      rw [ht] at hpb; cases hpb
      rename_i _ hold
      rcases newest_shape hsh hnew with ⟨e1, e2, rfl, e4, e5⟩ | ⟨e1, e2, rfl, e4, hk, m0, e5, e6⟩ | ⟨e1, e2, _⟩ | ⟨e1, e2⟩
      · refine ⟨as, some 1, ?_, by rw [hot]; exact hpa, ?_, hwf, hwt, hrd, by rw [hot]; exact hdat⟩
        · subst e1
          simp only [MState.rmw, Function.update_self, e5]
          exact .b _ _ e4 (by simp [nextMsg, binary, e4])
        · simp only [MState.rmw, Function.update_self]
          exact .back fun e => absurd e (by simp [binary, e4]; omega)
      · refine ⟨as, some 2, ?_, by rw [hot]; exact hpa, ?_, hwf, hwt, hrd, by rw [hot]; exact hdat⟩
        · subst e1
          simp only [MState.rmw, Function.update_self, e6]
          exact .ab _ _ _ e5 e4 hk (by simp [nextMsg, binary, e4]) (hk.mono (msg_le_nextMsg _ _ _ _ _ _))
        · simp only [MState.rmw, Function.update_self]
          refine .back fun e => ⟨?_, e1⟩
          rcases hold with h | h | h
          · exact absurd (h.symm.trans e4) (by omega)
          · rw [hw]; exact h.mono (le_afterLoad _ _ _ _ _)
          · exact hk.mono (msg_le_afterLoad _ _ _ _ _ h)
      · cases e2
      · cases e2
    case fetch x c k t m w ht hc hnew =>
      rw [ht] at hpb; cases hpb
      rcases newest_shape hsh hnew with ⟨e1, e2, rfl, e4, e5⟩ | ⟨e1, e2, rfl, e4, hk, m0, e5, e6⟩ | ⟨e1, e2, _⟩ | ⟨e1, e2⟩
      · refine ⟨as, some 1, ?_, by rw [hot]; exact hpa, ?_, hwf, hwt, hrd, by rw [hot]; exact hdat⟩
        · subst e1
          simp only [MState.rmw, Function.update_self, e5]
          exact .b _ _ e4 (by simp [nextMsg, binary, e4])
        · simp only [MState.rmw, Function.update_self]
          exact .fetched _ _ _ (one_le_afterLoad _ _ _ _ _)
      · refine ⟨as, some 2, ?_, by rw [hot]; exact hpa, ?_, hwf, hwt, hrd, by rw [hot]; exact hdat⟩
        · subst e1
          simp only [MState.rmw, Function.update_self, e6]
          exact .ab _ _ _ e5 e4 hk (by simp [nextMsg, binary, e4]) (hk.mono (msg_le_nextMsg _ _ _ _ _ _))
        · simp only [MState.rmw, Function.update_self]
          exact .fetched _ _ _ (one_le_afterLoad _ _ _ _ _)
      · cases e2
      · cases e2
    case reload x c k t m w ht hm =>
      have hm2 := hm.2
      rw [ht] at hpb hm2; cases hpb
      rename_i b hbw
      refine ⟨as, some b, by simpa [MState.set] using hsh, by rw [hot]; exact hpa, ?_, hwf, hwt, hrd, by rw [hot]; exact hdat⟩
      simp only [MState.set, Function.update_self]
      refine .back fun e => ?_
      have := reload_shape hn hsh hm.1 (le_trans hbw hm2) e
      exact ⟨this.1.mono (msg_le_afterLoad _ _ _ _ _ rfl), this.2⟩
    case get d k w ht hc =>
      rw [ht] at hpb; cases hpb
      rename_i t e hk
      subst e
      refine ⟨true, some t, by simpa [MState.set, MState.noteRd] using hsh, by rw [hot]; exact hpa, ?_, hwf, hwt, by simp, by rw [hot]; exact hdat⟩
      simp only [MState.set, Function.update_self]
      exact .done _ _ _
    case unary x c k t m w ht hc hnew =>
      rw [ht] at hpb; cases hpb
      simp at hc; rw [hc] at hb; simp at hb
    case lock x c k w ht hc hm =>
      rw [ht] at hpb; cases hpb
      simp at hc; rw [hc] at hb; simp at hb
    case serRead x c k t m w ht hc _ _ =>
      rw [ht] at hpb; cases hpb
      simp at hc; rw [hc] at hb; simp at hb
    case put ht _ => rw [ht] at hpb; cases hpb
    case lockRead ht _ _ => rw [ht] at hpb; cases hpb
    case lockWrite ht _ => rw [ht] at hpb; cases hpb
    case unlock ht => rw [ht] at hpb; cases hpb
    case serWrite ht _ => rw [ht] at hpb; cases hpb
  · have hof := hoth false (by simp)
    cases hs
    case put d u k w ht hc =>
      rw [ht] at hpa; cases hpa
      rename_i hw
      refine ⟨false, bs, by simpa [MState.set, MState.noteWr] using hsh, ?_, by rw [hof]; exact hpb, ?_, ?_, hrd, fun _ => ?_⟩
      · simp only [MState.set, Function.update_self]
        exact .ready _ (by simp [Knows, MState.tick])
      · simpa [MState.set, MState.noteWr, note] using hwf
      · simp [MState.set, MState.noteWr, note, ht, hw]
      · simp [MState.set]
    case load x c k t m w ht hc hm =>
      rw [ht] at hpa; cases hpa
      rename_i hk
      refine ⟨false, bs, by simpa [MState.set] using hsh, ?_, by rw [hof]; exact hpb, hwf, hwt, hrd, fun _ => hdat (by rw [ht]; simp [producer])⟩
      simp only [MState.set, Function.update_self]
      exact .loaded _ _ (hk.mono (le_afterLoad _ _ _ _ _))
    case casFail x c k old t m w ht hm hne =>
      rw [ht] at hpa; cases hpa
      rename_i hk
      refine ⟨false, bs, by simpa [MState.set] using hsh, ?_, by rw [hof]; exact hpb, hwf, hwt, hrd, fun _ => hdat (by rw [ht]; simp [producer])⟩
      simp only [MState.set, Function.update_self]
      exact .loaded _ _ (hk.mono (le_afterLoad _ _ _ _ _))
    case casOk x c k t m w ht hnew =>
      have hw : (s.thr true).view = w := by rw [ht]
      have hd := hdat (by rw [ht]; simp [producer])
      rw [ht] at hpa; cases hpa
      rename_i hk
      have hk' : Knows (s.thr true).view := by rw [hw]; exact hk
      rcases newest_shape hsh hnew with ⟨e1, e2, rfl, e4, e5⟩ | ⟨e1, e2, _⟩ | ⟨e1, e2, rfl, e4, m0, e5, e6⟩ | ⟨e1, e2⟩
      · refine ⟨true, bs, ?_, ?_, by rw [hof]; exact hpb.mono (by simp), hwf, hwt, by simp, fun _ => hd⟩
        · subst e2
          simp only [MState.rmw, Function.update_self, e5]
          exact .a _ _ e4 (by simp [nextMsg, binary, e4]) (hk'.mono (view_le_nextMsg _ _ _ _ _ _ hr))
        · simp only [MState.rmw, Function.update_self]; exact .done _
      · cases e1
      · refine ⟨true, bs, ?_, ?_, by rw [hof]; exact hpb.mono (by simp), hwf, hwt, by simp, fun _ => hd⟩
        · subst e2
          simp only [MState.rmw, Function.update_self, e6]
          exact .ba _ _ _ e5 e4 (hk'.mono (view_le_nextMsg _ _ _ _ _ _ hr))
        · simp only [MState.rmw, Function.update_self]; exact .done _
      · cases e1
    case fetch x c k t m w ht hc hnew =>
      have hw : (s.thr true).view = w := by rw [ht]
      have hd := hdat (by rw [ht]; simp [producer])
      rw [ht] at hpa; cases hpa
      rename_i hk
      have hk' : Knows (s.thr true).view := by rw [hw]; exact hk
      rcases newest_shape hsh hnew with ⟨e1, e2, rfl, e4, e5⟩ | ⟨e1, e2, _⟩ | ⟨e1, e2, rfl, e4, m0, e5, e6⟩ | ⟨e1, e2⟩
      · refine ⟨true, bs, ?_, ?_, by rw [hof]; exact hpb.mono (by simp), hwf, hwt, by simp, fun _ => hd⟩
        · subst e2
          simp only [MState.rmw, Function.update_self, e5]
          exact .a _ _ e4 (by simp [nextMsg, binary, e4]) (hk'.mono (view_le_nextMsg _ _ _ _ _ _ hr))
        · simp only [MState.rmw, Function.update_self]; exact .fetched _
      · cases e1
      · refine ⟨true, bs, ?_, ?_, by rw [hof]; exact hpb.mono (by simp), hwf, hwt, by simp, fun _ => hd⟩
        · subst e2
          simp only [MState.rmw, Function.update_self, e6]
          exact .ba _ _ _ e5 e4 (hk'.mono (view_le_nextMsg _ _ _ _ _ _ hr))
        · simp only [MState.rmw, Function.update_self]; exact .fetched _
      · cases e1
    case reload x c k t m w ht hm =>
      have hd := hdat (by rw [ht]; simp [producer])
      rw [ht] at hpa; cases hpa
      refine ⟨true, bs, by simpa [MState.set] using hsh, ?_, by rw [hof]; exact hpb, hwf, hwt, hrd, fun _ => hd⟩
      simp only [MState.set, Function.update_self]
      exact .done _
    case unary x c k t m w ht hc hnew =>
      rw [ht] at hpa; cases hpa
      simp at hc; rw [hc] at ha; simp at ha
    case lock x c k w ht hc hm =>
      rw [ht] at hpa; cases hpa
      simp at hc; rw [hc] at ha; simp at ha
    case serRead x c k t m w ht hc _ _ =>
      rw [ht] at hpa; cases hpa
      simp at hc; rw [hc] at ha; simp at ha
    case get ht _ => rw [ht] at hpa; cases hpa
    case lockRead ht _ _ => rw [ht] at hpa; cases hpa
    case lockWrite ht _ => rw [ht] at hpa; cases hpa
    case unlock ht => rw [ht] at hpa; cases hpa
    case serWrite ht _ => rw [ht] at hpa; cases hpa

theorem pairInv_exec {n v p : Int} (hn : n ≠ 0) {sa sb : Scheme} {ua ub : Used}
    (ha : sa = .strong ∨ sa = .weak ∨ sa = .native) (hb : sb = .strong ∨ sb = .weak ∨ sb = .native)
    (hr : ua.order.releases = true) (hq : sb = .native ∨ ub.order.acquires = true ∨ ub.failOrder.acquires = true)
    {s : MState Bool Unit Unit Int Int} {tr : List (Bool × Act Unit Unit Int Int)}
    (h : MExec (minit (fun _ => 0) (fun _ => 0) (pair n v p sa sb ua ub)) tr s) :
    (∃ as bs, PairInv n v p sa sb ua ub s as bs) ∧ ∀ j r, (j, Act.get () r) ∈ tr → r = v := by
  generalize hs : minit (fun _ => 0) (fun _ => 0) (pair n v p sa sb ua ub) = s0 at h
  induction h with
  | nil =>
    subst hs
    refine ⟨⟨false, none, ?_, ?_, ?_, rfl, by simp [minit], fun _ _ => rfl, fun h => absurd rfl h⟩, by simp⟩
    · exact .none _ rfl
    · exact .start _ rfl
    · exact .start _ _
  | @snoc tr s1 s2 act i _ hst ih =>
    obtain ⟨⟨as, bs, hi⟩, hv⟩ := ih
    refine ⟨pairInv_step hn ha hb hr hq hi hst, fun j r hj => ?_⟩
    rw [List.mem_append] at hj
    rcases hj with hj | hj
    · exact hv j r hj
    · simp at hj
      obtain ⟨rfl, rfl⟩ := hj
      cases hst
      case get k w ht hc =>
        cases j
        · have hpb := hi.pb
          rw [ht] at hpb; cases hpb
          rename_i e _
          subst e
          refine hi.dat fun e => ?_
          have hpa := hi.pa
          revert e
          generalize s1.thr true = th at hpa ⊢
          cases hpa <;> simp [producer]
        · have hpa := hi.pa
          rw [ht] at hpa; cases hpa

theorem pair_safe {n v p : Int} (hn : n ≠ 0) {sa sb : Scheme} {ua ub : Used}
    (ha : sa = .strong ∨ sa = .weak ∨ sa = .native) (hb : sb = .strong ∨ sb = .weak ∨ sb = .native)
    (hr : ua.order.releases = true) (hq : sb = .native ∨ ub.order.acquires = true ∨ ub.failOrder.acquires = true) :
    RaceFree (fun _ => 0) (fun _ => 0) (pair n v p sa sb ua ub) := by
  intro tr s i he hrace
  obtain ⟨⟨as, bs, hi⟩, -⟩ := pairInv_exec hn ha hb hr hq he
  have hpa := hi.pa
  have hpb := hi.pb
  cases i
  · cases hrace
    case get d k w ht hc =>
      refine hc ⟨fun j => ?_, by simp⟩
      rw [ht] at hpb; cases hpb
      rename_i e hk
      cases j
      · rw [hi.wrf]; exact Nat.zero_le _
      · rw [ht]; exact le_trans hi.wrt hk
    case lockRead ht _ => rw [ht] at hpb; cases hpb
    case lockWrite ht _ => rw [ht] at hpb; cases hpb
    case serWrite ht _ => rw [ht] at hpb; cases hpb
    case put ht _ => rw [ht] at hpb; cases hpb
    case serRead x c k w ht hs _ =>
      rw [ht] at hpb; cases hpb
      simp at hs; rw [hs] at hb; simp at hb
  · cases hrace
    case put d u k w ht hc =>
      refine hc ⟨fun j => ?_, fun _ j => ?_⟩
      · cases j
        · rw [hi.wrf]; exact Nat.zero_le _
        · exact (ownInv_exec he).wr _ _
      · rw [ht] at hpa; cases hpa
        rw [hi.rd rfl]; exact Nat.zero_le _
    case lockRead ht _ => rw [ht] at hpa; cases hpa
    case lockWrite ht _ => rw [ht] at hpa; cases hpa
    case serWrite ht _ => rw [ht] at hpa; cases hpa
    case get ht _ => rw [ht] at hpa; cases hpa
    case serRead x c k w ht hs _ =>
      rw [ht] at hpa; cases hpa
      simp at hs; rw [hs] at ha; simp at ha

/-- **C99** One thread writes a datum and then adds to a flag; another adds to the flag and, if it
finds that both have added, reads the datum.  This is free of data races, in every interleaving,
exactly if the first update releases and the second one acquires: by its success order, or by its
failure order (the order of the reads that made it retry), or by being a call under `cpp`, whatever
its order.  And then the value read is the one written. -/
theorem C99_pair_iff (n v p : Int) (hn : n ≠ 0) (sa sb : Scheme) (ua ub : Used)
    (ha : sa = .strong ∨ sa = .weak ∨ sa = .native) (hb : sb = .strong ∨ sb = .weak ∨ sb = .native) :
    (RaceFree (fun _ => 0) (fun _ => 0) (pair n v p sa sb ua ub) ↔
      ua.order.releases = true ∧ (sb = .native ∨ ub.order.acquires = true ∨ ub.failOrder.acquires = true)) ∧
    (RaceFree (fun _ => 0) (fun _ => 0) (pair n v p sa sb ua ub) →
      ∀ tr s j r, MExec (minit (fun _ => 0) (fun _ => 0) (pair n v p sa sb ua ub)) tr s → (j, Act.get () r) ∈ tr → r = v) := by
  have hiff : RaceFree (fun _ => 0) (fun _ => 0) (pair n v p sa sb ua ub) ↔
      ua.order.releases = true ∧ (sb = .native ∨ ub.order.acquires = true ∨ ub.failOrder.acquires = true) := by
    refine ⟨fun h => ⟨?_, ?_⟩, fun h => pair_safe hn ha hb h.1 h.2⟩
    · by_contra hr
      exact pair_needs_release n v p sa sb ua ub ha hb (by simpa using hr) h
    · by_contra hq
      push Not at hq
      exact pair_needs_acquire n v p hn sa sb ua ub ha (by tauto) (by simpa using hq.2.1) (by simpa using hq.2.2) h
  exact ⟨hiff, fun h tr s j r he hj => (pairInv_exec hn ha hb (hiff.mp h).1 (hiff.mp h).2 he).2 j r hj⟩

/-! ## in terms of the calls as written -/

/-- no order written means sequentially consistent -/
def Orders.releases : Orders → Bool
  | .none => true
  | .one o => o.releases
  | .two s _ => s.releases

/-- either of the orders acquires -/
def Orders.acquires : Orders → Bool
  | .none => true
  | .one o => o.acquires
  | .two s f => s.acquires || f.acquires

/-- the schemes whose updates are atomic instructions -/
def Tag.instructions (t : Tag) : Prop := t ≠ .lock ∧ t ≠ .serial

/-- what `add(x, n, orders)` compiles to under these schemes -/
theorem add_compiled (L : Lang Int Int) (hp : L.assign .plus = some (· + ·)) (hf : L.fetch .add = some (· + ·))
    (z : Sizes) (hz : z.Ordered) (size : Nat) (own : Tag) (s : Option Tag) (n : Int) (o : Orders)
    (ht : (s.getD own).instructions) (r : Compiled Int) (h : compile L z size own (.function .add s (some n) o) = some r) :
    ∃ sc u, r = (sc, binary (· + n), u) ∧ (sc = .strong ∨ sc = .weak ∨ sc = .native) ∧
      (sc = .native ↔ s.getD own = .cpp) ∧ u.order.releases = o.releases ∧
      (s.getD own ≠ .cpp → (u.order.acquires || u.failOrder.acquires) = o.acquires) := by
  obtain ⟨sc, f, u⟩ := r
  by_cases hc : s.getD own = .cpp
  · obtain ⟨h1, h2, h3⟩ := (C92_cpp L z size own .add s (some n) o hc _).mp h
    have hf' : f = binary (· + n) := by
      simp only [nativeDocumented, hf, Option.map_some, Option.some.injEq] at h1
      rw [← h1]; rfl
    subst hf'
    simp only [Name.unary, Bool.false_eq_true, if_false] at h2
    refine ⟨sc, u, rfl, .inr (.inr h2), ⟨fun _ => hc, fun _ => h2⟩, ?_, fun h => absurd hc h⟩
    rcases h3 with ⟨rfl, hu⟩ | ⟨_, m, rfl, hu⟩ <;> simp only at hu <;> subst hu <;> rfl
  · obtain ⟨⟨_, _⟩, h2, h1, h3⟩ := (C92_meaning L z hz size own .add s (some n) o hc _).mp h
    have hf' : f = binary (· + n) := by
      simp only [documented, hp, Option.map_some, Option.some.injEq] at h1
      rw [← h1]; rfl
    subst hf'
    simp only [ht.1, ht.2, or_self, if_false] at h3
    simp only at h2
    have hs : sc = .strong ∨ sc = .weak := by
      rw [h2]
      obtain ⟨hl, hr⟩ := ht
      generalize s.getD own = tag at *
      cases tag <;> simp_all [Tag.scheme]
    refine ⟨sc, u, rfl, by tauto, ⟨fun e => ?_, fun e => absurd e hc⟩, ?_, fun _ => ?_⟩
    · rcases hs with hs | hs <;> rw [hs] at e <;> cases e
    · cases o <;> simp only at h3 <;> subst h3 <;> rfl
    · cases o with
      | none => simp only at h3; subst h3; rfl
      | one m => simp only at h3; subst h3; cases m <;> rfl
      | two a b => simp only at h3; subst h3; rfl

/-- **C99** The same in terms of the calls as written: `add(x, n, orders)` after writing the datum,
and `add(x, p, orders)` before reading it, each with any scheme that is not `lock` or `serial`:
exactly if the producer's order releases and the consumer's call is one under `cpp`, or one of its
orders acquires.  Without orders both do. -/
theorem C99_calls (L : Lang Int Int) (hp : L.assign .plus = some (· + ·)) (hf : L.fetch .add = some (· + ·))
    (z : Sizes) (hz : z.Ordered) (size : Nat) (own : Tag) (sa sb : Option Tag) (n v p : Int) (hn : n ≠ 0)
    (oa ob : Orders) (ha : (sa.getD own).instructions) (hb : (sb.getD own).instructions) (ra rb : Compiled Int)
    (hca : compile L z size own (.function .add sa (some n) oa) = some ra)
    (hcb : compile L z size own (.function .add sb (some p) ob) = some rb) :
    RaceFree (fun _ => 0) (fun _ => 0) (fun i : Bool =>
      if i then (.put () v (.update () ra fun _ => .done) : Prog Unit Unit Int Int)
      else .update () rb fun r => if r = n + p then .get () fun _ => .done else .done) ↔
    oa.releases = true ∧ (sb.getD own = .cpp ∨ ob.acquires = true) := by
  obtain ⟨sca, ua, rfl, h1, _, h3, _⟩ := add_compiled L hp hf z hz size own sa n oa ha ra hca
  obtain ⟨scb, ub, rfl, g1, g2, _, g4⟩ := add_compiled L hp hf z hz size own sb p ob hb rb hcb
  have := (C99_pair_iff n v p hn sca scb ua ub h1 g1).1
  refine Iff.trans this ?_
  rw [h3]
  refine and_congr_right fun _ => ?_
  rw [g2]
  by_cases hc : sb.getD own = .cpp
  · simp [hc]
  · rw [← g4 hc]; simp

/-! ## concrete cases -/

/-- the default orders are enough; a relaxed addition is not enough on either side, except for the
consumer under `cpp` -/
example : RaceFree (fun _ => 0) (fun _ => 0) (pair 1 7 2 .strong .weak (.cas .seqCst) (.cas .seqCst)) ∧
    RaceFree (fun _ => 0) (fun _ => 0) (pair 1 7 2 .native .native (.rmw .release) (.rmw .relaxed)) ∧
    RaceFree (fun _ => 0) (fun _ => 0) (pair 1 7 2 .strong .strong (.cas .release) (.cas2 .relaxed .acquire)) ∧
    ¬ RaceFree (fun _ => 0) (fun _ => 0) (pair 1 7 2 .strong .strong (.cas .release) (.cas .relaxed)) ∧
    ¬ RaceFree (fun _ => 0) (fun _ => 0) (pair 1 7 2 .native .strong (.rmw .relaxed) (.cas .seqCst)) := by
  refine ⟨(C99_pair_iff 1 7 2 (by decide) _ _ _ _ (by simp) (by simp)).1.mpr (by decide),
    (C99_pair_iff 1 7 2 (by decide) _ _ _ _ (by simp) (by simp)).1.mpr (by decide),
    (C99_pair_iff 1 7 2 (by decide) _ _ _ _ (by simp) (by simp)).1.mpr (by decide),
    fun h => absurd ((C99_pair_iff 1 7 2 (by decide) _ _ _ _ (by simp) (by simp)).1.mp h) (by decide),
    fun h => absurd ((C99_pair_iff 1 7 2 (by decide) _ _ _ _ (by simp) (by simp)).1.mp h) (by decide)⟩

/-- integers, as far as additions go -/
def addLang : Lang Int Int where
  assign | .plus => some (· + ·) | _ => none
  inc := none
  dec := none
  ltXT := none
  ltTX := none
  conv := none
  fetch | .add => some (· + ·) | _ => none
  stdInc := none
  stdDec := none

/-- `add(x, 1)` and `add<cpp>(x, 2, memory_order_relaxed)` on a variable with the `strong` scheme -/
example : ∃ ra rb, compile addLang lp64 8 .strong (.function .add none (some 1) .none) = some ra ∧
    compile addLang lp64 8 .strong (.function .add (some .cpp) (some 2) (.one .relaxed)) = some rb ∧
    RaceFree (fun _ => 0) (fun _ => 0) (fun i : Bool =>
      if i then (.put () 7 (.update () ra fun _ => .done) : Prog Unit Unit Int Int)
      else .update () rb fun r => if r = 1 + 2 then .get () fun _ => .done else .done) :=
  ⟨_, _, rfl, rfl, (C99_calls addLang rfl rfl lp64 (by simp [Sizes.Ordered, lp64]) 8 .strong none (some .cpp) 1 7 2 (by decide)
    .none (.one .relaxed) (by simp [Tag.instructions]) (by simp [Tag.instructions]) _ _ rfl rfl).mpr (by decide)⟩

/-- the consumer's update after the producer's: the write is known, and the consumer reads it -/
theorem pair_run : ∃ tr s0 s1 s2 s3, MExec (minit (fun _ => 0) (fun _ => 0) (pair 1 7 2 .strong .native (.cas .release) (.rmw .relaxed)))
      tr s0 ∧ s0.Clear true (.inr ()) true ∧ s0.dat () = 7 ∧ MStep s0 true (.rmw () 0 .release) s1 ∧
      MStep s1 false (.rmw () 1 .relaxed) s2 ∧ MStep s2 false (.load () 2 .seqCst) s3 := by
  refine ⟨_, _, _, _, _, .snoc true (.snoc true .nil
    (.put () 7 _ _ rfl ⟨by simp [minit], by simp [minit]⟩))
    (.load () (.strong, binary (· + 1), .cas .release) _ 0 ⟨0, fun _ => 0⟩ _ rfl (.inl rfl) ⟨rfl, ?_⟩), ⟨?_, ?_⟩, ?_,
    .casOk () (.strong, binary (· + 1), .cas .release) _ 0 ⟨0, fun _ => 0⟩ _ rfl ⟨rfl, rfl⟩,
    .fetch () (.native, binary (· + 2), .rmw .relaxed) _ 1 _ _ rfl rfl ⟨rfl, rfl⟩,
    .reload () (.native, binary (· + 2), .rmw .relaxed) _ 2 _ _ rfl ⟨rfl, ?_⟩⟩
  · simp [MState.set, MState.tick, minit]
  · intro j
    cases j <;> simp [MState.set, MState.noteWr, note, minit, afterLoad, View.one, MState.tick]
  · intro _ j; simp [MState.set, MState.noteWr, minit]
  · simp [MState.set]
  · simp [MState.rmw, MState.set, MState.noteWr, minit, afterLoad, View.one, Msg.acquired, Used.order, MemOrder.acquires]

example : ∃ s0 s3 : MState Bool Unit Unit Int Int, (s0.thr true).view ≤ (s3.thr false).view ∧ s0.Clear true (.inr ()) true := by
  obtain ⟨tr, s0, s1, s2, s3, he, hc, hd, h1, h2, h3⟩ := pair_run
  exact ⟨s0, s3, C99_cpp h1 rfl .nil h2 .nil h3 (by simp), hc⟩

example : ∃ s0 s3 : MState Bool Unit Unit Int Int, (s0.thr true).view ≤ (s3.thr false).view ∧
    s3.Clear false (.inr ()) true ∧ s3.dat () = 7 := by
  obtain ⟨tr, s0, s1, s2, s3, he, hc, hd, h1, h2, h3⟩ := pair_run
  have hl : AcquiresFrom (Act.load () 2 .seqCst : Act Unit Unit Int Int) () (0 + 1) := ⟨2, .seqCst, by decide, rfl, .inl rfl⟩
  have hx : ∀ j, (j, Act.plainWrite ()) ∉ ([] ++ [(false, (Act.rmw () 1 .relaxed : Act Unit Unit Int Int))]) := by simp
  have hd' := C99_data h1 rfl (.snoc false .nil h2) hx h3 hl .nil true hc (by simp) (by simp)
  exact ⟨s0, s3, C99_publish h1 rfl (.snoc false .nil h2) hx h3 hl, hd'.1, hd'.2.trans hd⟩

end Verif.Atomics
