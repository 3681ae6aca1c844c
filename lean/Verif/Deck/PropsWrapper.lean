import Verif.Deck.Wrapper
import Verif.LuaStack.PropsValue

/-! # C101: functions taken from an input file stay callable -/

namespace Verif.Deck

open Verif.LuaStack

variable {F : Type}

/-- a wrapper and what it stands for -/
def WrapOk (obj : Nat → Option (Result F)) (next : Nat) (locals : List Nat) :
    Option (Option (Nat × Nat)) → Option (Option (Origin F)) → Prop
  | none, none => True
  | some none, some none => True
  | some (some (sh, tg)), some (some (.own r)) => sh < next ∧ tg = sh ∧ obj sh = some r
  | some (some (sh, tg)), some (some (.var j)) => sh < next ∧ locals[j]? = some tg
  | _, _ => False

/-- a variable and its value -/
def VarOk (obj : Nat → Option (Result F)) (next : Nat) : Option Nat → Option (Option (Result F)) → Prop
  | none, none => True
  | some ad, some v => ad < next ∧ obj ad = v
  | _, _ => False

/-- the objects are as the program means them -/
structure Inv (w : World F) (p : Plan F) : Prop where
  wrapLen : w.wraps.length = p.wraps.length
  varLen : w.locals.length = p.vars.length
  wrapOk : ∀ i : Nat, WrapOk w.obj w.next w.locals w.wraps[i]? p.wraps[i]?
  varOk : ∀ j : Nat, VarOk w.obj w.next w.locals[j]? p.vars[j]?
  apart : ∀ (i sh tg : Nat), w.wraps[i]? = some (some (sh, tg)) → sh ∉ w.locals
  once : ∀ (j j' ad : Nat), w.locals[j]? = some ad → w.locals[j']? = some ad → j = j'

theorem WrapOk.mono {obj obj' : Nat → Option (Result F)} {next next' : Nat} {locals locals' : List Nat}
    {x : Option (Option (Nat × Nat))} {y : Option (Option (Origin F))} (h : WrapOk obj next locals x y) (hn : next ≤ next')
    (ho : ∀ sh tg, x = some (some (sh, tg)) → sh < next → tg = sh → obj' sh = obj sh)
    (hl : ∀ (j ad : Nat), locals[j]? = some ad → locals'[j]? = some ad) : WrapOk obj' next' locals' x y := by
  match x, y, h with
  | none, none, _ => trivial
  | some none, some none, _ => trivial
  | some (some (sh, tg)), some (some (.own r)), ⟨h1, h2, h3⟩ => exact ⟨by omega, h2, by rw [ho sh tg rfl h1 h2, h3]⟩
  | some (some (sh, tg)), some (some (.var j)), ⟨h1, h2⟩ => exact ⟨by omega, hl j tg h2⟩

theorem VarOk.mono {obj obj' : Nat → Option (Result F)} {next next' : Nat} {x : Option Nat} {y : Option (Option (Result F))}
    (h : VarOk obj next x y) (hn : next ≤ next') (ho : ∀ ad, x = some ad → ad < next → obj' ad = obj ad) :
    VarOk obj' next' x y := by
  match x, y, h with
  | none, none, _ => trivial
  | some ad, some v, ⟨h1, h2⟩ => exact ⟨by omega, by rw [ho ad rfl h1, h2]⟩

theorem local_lt {w : World F} {p : Plan F} (h : Inv w p) {ad : Nat} (ha : ad ∈ w.locals) : ad < w.next := by
  obtain ⟨j, hj⟩ := List.mem_iff_getElem?.mp ha
  have := h.varOk j
  rw [hj] at this
  match hp : p.vars[j]?, this with
  | some v, this => exact this.1

theorem wrap_lt {w : World F} {p : Plan F} (h : Inv w p) {i sh tg : Nat} (hi : w.wraps[i]? = some (some (sh, tg))) :
    sh < w.next := by
  have := h.wrapOk i
  rw [hi] at this
  match hp : p.wraps[i]?, this with
  | some (some (.own r)), this => exact this.1
  | some (some (.var j)), this => exact this.1

/-- a new wrapper at the end, with a new object -/
theorem inv_push {w : World F} {p : Plan F} (h : Inv w p) (r : Result F) (tg : Nat) (o : Origin F)
    (ho : WrapOk (Function.update w.obj w.next (some r)) (w.next + 1) w.locals (some (some (w.next, tg))) (some (some o))) :
    Inv { w with obj := Function.update w.obj w.next (some r), next := w.next + 1, wraps := w.wraps ++ [some (w.next, tg)] }
      { p with wraps := p.wraps ++ [some o] } := by
  refine ⟨by simp [h.wrapLen], h.varLen, fun i => ?_, fun j => ?_, fun i sh tg' hi => ?_, h.once⟩
  · by_cases hi : i < w.wraps.length
    · dsimp only
      rw [List.getElem?_append_left hi, List.getElem?_append_left (by rw [← h.wrapLen]; exact hi)]
      refine (h.wrapOk i).mono (Nat.le_succ _) (fun sh tg _ hlt _ => ?_) (fun _ _ e => e)
      rw [Function.update_of_ne (by omega)]
    · dsimp only
      rw [List.getElem?_append_right (by omega), List.getElem?_append_right (by rw [← h.wrapLen]; omega), h.wrapLen]
      cases hk : i - p.wraps.length with
      | zero => exact ho
      | succ k => exact trivial
  · refine (h.varOk j).mono (Nat.le_succ _) (fun ad _ hlt => ?_)
    exact Function.update_of_ne (by omega) _ _
  · dsimp only at hi ⊢
    by_cases hl : i < w.wraps.length
    · rw [List.getElem?_append_left hl] at hi
      exact h.apart i sh tg' hi
    · rw [List.getElem?_append_right (by omega)] at hi
      cases hk : i - w.wraps.length with
      | zero =>
        rw [hk] at hi
        simp only [List.getElem?_cons_zero, Option.some.injEq, Prod.mk.injEq] at hi
        intro hm
        have := local_lt h hm
        omega
      | succ k => rw [hk] at hi; simp at hi

theorem inv_step {w : World F} {p : Plan F} (h : Inv w p) (a : Act F) :
    (act w a = none ∧ planned p a = none) ∨ ∃ w' p', act w a = some w' ∧ planned p a = some p' ∧ Inv w' p' := by
  cases a with
  | take r =>
    exact .inr ⟨_, _, rfl, rfl, inv_push h r w.next (.own r) ⟨by omega, rfl, by rw [Function.update_self]⟩⟩
  | var r =>
    refine .inr ⟨_, _, rfl, rfl, ?_⟩
    refine ⟨h.wrapLen, by simp [h.varLen], fun i => ?_, fun j => ?_, fun i sh tg hi => ?_, fun j j' ad hj hj' => ?_⟩
    · refine (h.wrapOk i).mono (Nat.le_succ _) (fun sh tg _ hlt _ => ?_) (fun j ad hj => ?_)
      · exact Function.update_of_ne (by omega) _ _
      · dsimp only; rw [List.getElem?_append_left (List.getElem?_eq_some_iff.mp hj).1]; exact hj
    · dsimp only
      by_cases hl : j < w.locals.length
      · rw [List.getElem?_append_left hl, List.getElem?_append_left (by rw [← h.varLen]; exact hl)]
        refine (h.varOk j).mono (Nat.le_succ _) (fun ad _ hlt => ?_)
        rw [Function.update_of_ne (by omega)]
      · rw [List.getElem?_append_right (by omega), List.getElem?_append_right (by rw [← h.varLen]; omega), h.varLen]
        cases j - p.vars.length with
        | zero => exact ⟨by omega, by rw [Function.update_self]⟩
        | succ k => exact trivial
    · have h1 := h.apart i sh tg hi
      have h2 := wrap_lt h hi
      simp only [List.mem_append, List.mem_singleton, not_or]
      exact ⟨h1, by omega⟩
    · dsimp only at hj hj'
      have key : ∀ j : Nat, (w.locals ++ [w.next])[j]? = some ad → (w.locals[j]? = some ad ∧ ad < w.next) ∨ (j = w.locals.length ∧ ad = w.next) := by
        intro j hj
        by_cases hl : j < w.locals.length
        · rw [List.getElem?_append_left hl] at hj
          exact .inl ⟨hj, local_lt h (List.mem_iff_getElem?.mpr ⟨j, hj⟩)⟩
        · rw [List.getElem?_append_right (by omega)] at hj
          cases hk : j - w.locals.length with
          | zero => rw [hk] at hj; simp only [List.getElem?_cons_zero, Option.some.injEq] at hj; exact .inr ⟨by omega, hj.symm⟩
          | succ k => rw [hk] at hj; simp at hj
      rcases key j hj with ⟨e, hlt⟩ | ⟨e, hlt⟩ <;> rcases key j' hj' with ⟨e', hlt'⟩ | ⟨e', hlt'⟩
      · exact h.once j j' ad e e'
      · omega
      · omega
      · omega
  | wrap j =>
    simp only [act, planned]
    have hv := h.varOk j
    match hj : w.locals[j]?, hp : p.vars[j]?, hv with
    | none, none, _ => exact .inl ⟨rfl, rfl⟩
    | some ad, some none, ⟨h1, h2⟩ => dsimp only; rw [h2]; exact .inl ⟨rfl, rfl⟩
    | some ad, some (some r), ⟨h1, h2⟩ =>
      dsimp only
      rw [h2]
      exact .inr ⟨_, _, rfl, rfl, inv_push h r ad (.var j) ⟨by omega, hj⟩⟩
  | leave j =>
    simp only [act, planned]
    have hv := h.varOk j
    match hj : w.locals[j]?, hp : p.vars[j]?, hv with
    | none, none, _ => exact .inl ⟨rfl, rfl⟩
    | some ad, some none, ⟨h1, h2⟩ => dsimp only; rw [h2]; exact .inl ⟨rfl, rfl⟩
    | some ad, some (some r), ⟨h1, h2⟩ =>
      dsimp only
      rw [h2]
      refine .inr ⟨_, _, rfl, rfl, ?_⟩
      refine ⟨h.wrapLen, by simp [h.varLen], fun i => ?_, fun k => ?_, h.apart, h.once⟩
      · refine (h.wrapOk i).mono (Nat.le_refl _) (fun sh tg hi hlt e => ?_) (fun _ _ e => e)
        have := h.apart i sh tg hi
        have hm : ad ∈ w.locals := List.mem_iff_getElem?.mpr ⟨j, hj⟩
        have hne : sh ≠ ad := fun e => this (e ▸ hm)
        exact Function.update_of_ne hne _ _
      · dsimp only
        by_cases hk : k = j
        · subst hk
          rw [hj, List.getElem?_set_self (by rw [← h.varLen]; exact (List.getElem?_eq_some_iff.mp hj).1)]
          exact ⟨h1, by rw [Function.update_self]⟩
        · rw [List.getElem?_set_ne (fun e => hk e.symm)]
          refine (h.varOk k).mono (Nat.le_refl _) (fun ad' e hlt => ?_)
          rw [Function.update_of_ne]
          rintro rfl
          exact hk (h.once k j _ e hj)
  | copy i =>
    simp only [act, planned]
    have hw := h.wrapOk i
    have key : ∀ (q : Nat × Nat) (o : Origin F), w.wraps[i]? = some (some q) → p.wraps[i]? = some (some o) →
        Inv { w with wraps := w.wraps ++ [some q] } { p with wraps := p.wraps ++ [some o] } := by
      intro q o e1 e2
      rw [e1, e2] at hw
      refine ⟨by simp [h.wrapLen], h.varLen, fun k => ?_, h.varOk, fun k sh tg hk => ?_, h.once⟩
      · dsimp only
        by_cases hl : k < w.wraps.length
        · rw [List.getElem?_append_left hl, List.getElem?_append_left (by rw [← h.wrapLen]; exact hl)]
          exact h.wrapOk k
        · rw [List.getElem?_append_right (by omega), List.getElem?_append_right (by rw [← h.wrapLen]; omega), h.wrapLen]
          cases k - p.wraps.length with
          | zero => exact hw
          | succ k => exact trivial
      · dsimp only at hk ⊢
        by_cases hl : k < w.wraps.length
        · rw [List.getElem?_append_left hl] at hk
          exact h.apart k sh tg hk
        · rw [List.getElem?_append_right (by omega)] at hk
          cases hz : k - w.wraps.length with
          | zero =>
            rw [hz] at hk
            simp only [List.getElem?_cons_zero, Option.some.injEq] at hk
            exact h.apart i sh tg (by rw [e1, hk])
          | succ k => rw [hz] at hk; simp at hk
    match hi : w.wraps[i]?, hp : p.wraps[i]?, hw with
    | none, none, _ => exact .inl ⟨rfl, rfl⟩
    | some none, some none, _ => exact .inl ⟨rfl, rfl⟩
    | some (some q), some (some o), _ => exact .inr ⟨_, _, rfl, rfl, key q o hi hp⟩
  | drop i =>
    simp only [act, planned]
    have hw := h.wrapOk i
    match hi : w.wraps[i]?, hp : p.wraps[i]?, hw with
    | none, none, _ => exact .inl ⟨rfl, rfl⟩
    | some none, some none, _ => exact .inl ⟨rfl, rfl⟩
    | some (some (sh, tg)), some (some o), _ =>
      refine .inr ⟨_, _, rfl, rfl, ?_⟩
      have hlen := (List.getElem?_eq_some_iff.mp hi).1
      have hobj : ∀ a, a ≠ sh → (if shared (w.wraps.set i none) sh then w.obj else Function.update w.obj sh none) a = w.obj a := by
        intro a ha
        split
        · rfl
        · rw [Function.update_of_ne ha]
      refine ⟨by simp [h.wrapLen], h.varLen, fun k => ?_, fun j => ?_, fun k sh' tg' hk => ?_, h.once⟩
      · dsimp only
        by_cases hk : k = i
        · subst hk
          rw [List.getElem?_set_self hlen, List.getElem?_set_self (by rw [← h.wrapLen]; exact hlen)]
          trivial
        · rw [List.getElem?_set_ne (fun e => hk e.symm), List.getElem?_set_ne (fun e => hk e.symm)]
          refine (h.wrapOk k).mono (Nat.le_refl _) (fun sh' tg' e hlt et => ?_) (fun _ _ e => e)
          by_cases hs : sh' = sh
          · subst hs
            have : shared (w.wraps.set i none) sh' = true := by
              unfold shared
              rw [List.any_eq_true]
              refine ⟨some (sh', tg'), List.mem_iff_getElem?.mpr ⟨k, ?_⟩, by simp⟩
              rw [List.getElem?_set_ne (fun e => hk e.symm)]
              exact e
            rw [if_pos this]
          · exact hobj sh' hs
      · refine (h.varOk j).mono (Nat.le_refl _) (fun ad e hlt => hobj ad ?_)
        rintro rfl
        exact h.apart i ad tg hi (List.mem_iff_getElem?.mpr ⟨j, e⟩)
      · dsimp only at hk ⊢
        by_cases hki : k = i
        · subst hki; rw [List.getElem?_set_self hlen] at hk; cases hk
        · rw [List.getElem?_set_ne (fun e => hki e.symm)] at hk
          exact h.apart k sh' tg' hk

theorem inv_all : ∀ (as : List (Act F)) {w : World F} {p : Plan F}, Inv w p →
    (acts w as = none ∧ plannedAll p as = none) ∨ ∃ w' p', acts w as = some w' ∧ plannedAll p as = some p' ∧ Inv w' p' := by
  intro as
  induction as with
  | nil => intro w p h; exact .inr ⟨w, p, rfl, rfl, h⟩
  | cons a as ih =>
    intro w p h
    simp only [acts, plannedAll]
    obtain ⟨e1, e2⟩ | ⟨w', p', e1, e2, h'⟩ := inv_step h a
    · rw [e1, e2]; exact .inl ⟨rfl, rfl⟩
    · rw [e1, e2]; exact ih h'

theorem inv_empty : Inv (empty : World F) ⟨[], []⟩ :=
  ⟨rfl, rfl, fun _ => trivial, fun _ => trivial, fun _ _ _ h => by simp [empty] at h, fun _ _ _ h => by simp [empty] at h⟩

theorem callee_meant {w : World F} {p : Plan F} (h : Inv w p) (i : Nat) : callee w i = meant p i := by
  unfold callee meant
  have hw := h.wrapOk i
  match hi : w.wraps[i]?, hp : p.wraps[i]?, hw with
  | none, none, _ => rfl
  | some none, some none, _ => rfl
  | some (some (sh, tg)), some (some (.own r)), ⟨_, h2, h3⟩ => dsimp only; rw [h2, h3]
  | some (some (sh, tg)), some (some (.var j)), ⟨_, h2⟩ =>
    dsimp only
    have hv := h.varOk j
    rw [h2] at hv
    match hq : p.vars[j]?, hv with
    | some v, ⟨_, h4⟩ => simp [h4]

/-- **C101** For every program that wraps functions, copies and destroys wrappers and lets
variables go: a call of a wrapper made from a unique pointer, or of any copy of it, goes to the
function it was made from, as long as that copy lives, whatever happened to the others; a call of
one made from a variable goes to what the variable holds, and is undefined once the variable is
gone. -/
theorem C101_calls (as : List (Act F)) {w : World F} (hw : acts empty as = some w) :
    ∃ p, plannedAll ⟨[], []⟩ as = some p ∧ ∀ (L : Lua F) (i : Nat) (args : List (Arg F)) (t : Ty) (s : St F),
      callWrap L w i args t s = match meant p i with
        | none => .ub
        | some r => (callResult L r args >>= fun q => convert L q t) s := by
  obtain ⟨e1, -⟩ | ⟨w', p', e1, e2, h'⟩ := inv_all as inv_empty
  · rw [e1] at hw; cases hw
  · rw [e1] at hw
    cases hw
    refine ⟨p', e2, fun L i args t s => ?_⟩
    unfold callWrap
    rw [callee_meant h' i]
    cases meant p' i <;> rfl

/-- a function is wrapped, the wrapper copied twice, the first two destroyed: the third still calls it -/
example : ∃ w : World Int, acts empty [.take ⟨[.func 1], 0⟩, .copy 0, .copy 1, .drop 0, .drop 1] = some w ∧
    ∀ args t s, callWrap exLua w 2 args t s = (callResult exLua ⟨[.func 1], 0⟩ args >>= fun q => convert exLua q t) s := by
  have e : ∃ w : World Int, acts empty [.take ⟨[.func 1], 0⟩, .copy 0, .copy 1, .drop 0, .drop 1] = some w := ⟨_, rfl⟩
  obtain ⟨w, hw⟩ := e
  obtain ⟨p, hp, h⟩ := C101_calls _ hw
  cases hp
  exact ⟨w, hw, fun args t s => h exLua 2 args t s⟩

/-- the programs of the input engine: wrappers are made from unique pointers only -/
def Owning : Act F → Prop
  | .wrap _ => False
  | _ => True

theorem owning_plan : ∀ (as : List (Act F)), (∀ a ∈ as, Owning a) → ∀ {p p' : Plan F}, plannedAll p as = some p' →
    (∀ (i : Nat) (o : Origin F), p.wraps[i]? = some (some o) → ∃ r, o = Origin.own r) → ∀ (i : Nat) (o : Origin F), p'.wraps[i]? = some (some o) → ∃ r, o = Origin.own r := by
  intro as
  induction as with
  | nil => intro _ p p' h hp; cases h; exact hp
  | cons a as ih =>
    intro ho p p' h hp
    simp only [plannedAll] at h
    cases hs : planned p a with
    | none => rw [hs] at h; cases h
    | some p1 =>
      rw [hs] at h
      refine ih (fun a ha => ho a (List.mem_cons_of_mem _ ha)) h ?_
      have hoa := ho a (by simp)
      have app : ∀ (o1 : Origin F), (∃ r, o1 = Origin.own r) → ∀ (i : Nat) (o : Origin F), (p.wraps ++ [some o1])[i]? = some (some o) → ∃ r, o = Origin.own r := by
        intro o1 h1 i o hi
        by_cases hl : i < p.wraps.length
        · rw [List.getElem?_append_left hl] at hi; exact hp i o hi
        · rw [List.getElem?_append_right (by omega)] at hi
          cases hz : i - p.wraps.length with
          | zero =>
            rw [hz] at hi
            simp only [List.getElem?_cons_zero, Option.some.injEq] at hi
            exact hi ▸ h1
          | succ k => rw [hz] at hi; simp at hi
      cases a with
      | take r => cases hs; exact app _ ⟨r, rfl⟩
      | var r => cases hs; exact hp
      | wrap j => exact hoa.elim
      | leave j =>
        simp only [planned] at hs
        split at hs
        · cases hs; exact hp
        · cases hs
      | copy i =>
        simp only [planned] at hs
        split at hs
        · rename_i o ho'
          cases hs; exact app _ (hp i o ho')
        · cases hs
      | drop i =>
        simp only [planned] at hs
        split at hs
        · cases hs
          intro k o hk
          by_cases hki : i = k
          · subst hki
            have hlen : i < p.wraps.length := by
              have := (List.getElem?_eq_some_iff.mp hk).1
              simpa using this
            rw [List.getElem?_set_self hlen] at hk; cases hk
          · rw [List.getElem?_set_ne hki] at hk; exact hp k o hk
        · cases hs

/-- **C101** So in the input engine, where wrappers are made from unique pointers, a call of a
living wrapper never touches a dead object. -/
theorem C101_owning (as : List (Act F)) (ho : ∀ a ∈ as, Owning a) {w : World F} (hw : acts empty as = some w) (i : Nat)
    {x : Nat × Nat} (hi : w.wraps[i]? = some (some x)) : ∃ r, callee w i = some r := by
  obtain ⟨e1, -⟩ | ⟨w', p', e1, e2, h'⟩ := inv_all as inv_empty
  · rw [e1] at hw; cases hw
  · rw [e1] at hw
    cases hw
    have hown := owning_plan as ho e2 (fun i o h => by simp at h)
    rw [callee_meant h' i]
    have hwk := h'.wrapOk i
    rw [hi] at hwk
    unfold meant
    match hp : p'.wraps[i]?, hwk with
    | some (some o), _ =>
      obtain ⟨r, rfl⟩ := hown i o hp
      exact ⟨r, rfl⟩

example : ∃ w : World Int, acts empty [.take ⟨[.func 1], 0⟩, .copy 0, .drop 0] = some w ∧ ∃ r, callee w 1 = some r :=
  ⟨_, rfl, C101_owning [.take ⟨[.func 1], 0⟩, .copy 0, .drop 0]
    (by
      intro a ha
      simp only [List.mem_cons, List.not_mem_nil, or_false] at ha
      rcases ha with rfl | rfl | rfl <;> trivial) rfl 1 (x := (0, 0)) rfl⟩

/-- **C101** is false for wrappers made from a variable: the wrapper keeps a copy of the result
alive and calls through a reference to the variable, so after the variable is gone the call is
undefined, for every function and arguments. -/
theorem C101_reference_fails (L : Lua F) (r : Result F) (args : List (Arg F)) (t : Ty) (s : St F) :
    ∃ w, acts empty [.var r, .wrap 0, .leave 0] = some w ∧ callWrap L w 0 args t s = .ub ∧
      ∃ sh tg, w.wraps[0]? = some (some (sh, tg)) ∧ w.obj sh = some r ∧ w.obj tg = none := by
  refine ⟨_, rfl, rfl, 1, 0, rfl, ?_, ?_⟩
  · rfl
  · rfl

end Verif.Deck
