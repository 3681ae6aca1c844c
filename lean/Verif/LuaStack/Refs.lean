import Verif.LuaStack.Model

/-!
# The registry behind `lua_ref_t`, embed_lua.h:489-541

A `lua_ref_t` shares, through a `shared_ptr`, the key of an entry of Lua's registry; the last
copy removes the entry.  Here: registry, control blocks of the shared pointers, and the objects,
with the events that create, copy, move and destroy an object in any order.  Which free key
`luaL_ref` picks is left open.  Assignment is destruction followed by copy or move.
-/

namespace Verif.LuaStack.Refs

variable {F : Type}

/-- `f` with one entry replaced -/
def set {α : Type} {β : Type} [DecidableEq α] (f : α → β) (x : α) (y : β) : α → β := fun z => if z = x then y else f z

/-- `reg`: the registry entries in use; `block`: control blocks, with the key (`*ref_`) and the
number of owners; `obj`: the block of each object, `none` if it does not exist or was moved from -/
structure C (F : Type) where
  reg : Int → Option (Val F)
  block : Nat → Option (Int × Nat)
  obj : Nat → Option Nat

/-- nothing yet -/
def C.init : C F := ⟨fun _ => none, fun _ => none, fun _ => none⟩

/-- events; `o` names the new object -/
inductive Ev (F : Type)
  /-- `make_lua_ref` with `v` on top of the stack, embed_lua.h:546-550 and 511-522 -/
  | make (o : Nat) (v : Val F)
  /-- copy of `o'` -/
  | copy (o o' : Nat)
  /-- move from `o'` -/
  | move (o o' : Nat)
  /-- destructor -/
  | drop (o : Nat)

/-- one event -/
inductive Step (c : C F) : Ev F → C F → Prop
  /-- `luaL_ref` of nil gives `LUA_REFNIL` (-1) and stores nothing -/
  | makeNil (o b : Nat) : c.obj o = none → c.block b = none →
      Step c (.make o .nil) { c with block := set c.block b (some (-1, 1)), obj := set c.obj o (some b) }
  /-- `luaL_ref` of another value stores it under a free positive key -/
  | make (o b : Nat) (k : Int) (v : Val F) : c.obj o = none → c.block b = none → v ≠ .nil → 0 < k → c.reg k = none →
      Step c (.make o v) ⟨set c.reg k (some v), set c.block b (some (k, 1)), set c.obj o (some b)⟩
  /-- copying the `shared_ptr` -/
  | copy (o o' b n : Nat) (k : Int) : c.obj o = none → c.obj o' = some b → c.block b = some (k, n) →
      Step c (.copy o o') { c with block := set c.block b (some (k, n + 1)), obj := set c.obj o (some b) }
  /-- moving it leaves the other one null -/
  | move (o o' b : Nat) : c.obj o = none → c.obj o' = some b →
      Step c (.move o o') { c with obj := set (set c.obj o' none) o (some b) }
  /-- an owner goes, others remain -/
  | drop (o b n : Nat) (k : Int) : c.obj o = some b → c.block b = some (k, n + 2) →
      Step c (.drop o) { c with block := set c.block b (some (k, n + 1)), obj := set c.obj o none }
  /-- the last owner goes: the deleter calls `luaL_unref`, which ignores negative keys -/
  | dropLast (o b : Nat) (k : Int) : c.obj o = some b → c.block b = some (k, 1) →
      Step c (.drop o) ⟨if k < 0 then c.reg else set c.reg k none, set c.block b none, set c.obj o none⟩
  /-- a moved-from object goes -/
  | dropNull (o : Nat) : c.obj o = none → Step c (.drop o) c

/-- any sequence of events from the start, latest first -/
inductive Run : List (Ev F) → C F → Prop
  | nil : Run [] C.init
  | cons {evs : List (Ev F)} {c c' : C F} (e : Ev F) : Run evs c → Step c e c' → Run (e :: evs) c'

/-- `push`, embed_lua.h:530-533: the entry under the key, nil if there is none; a moved-from object has
no key -/
def push (c : C F) (o : Nat) : Option (Val F) :=
  match c.obj o with
  | none => none
  | some b => match c.block b with
    | none => none
    | some (k, _) => some ((c.reg k).getD .nil)

/-- `empty`, embed_lua.h:536-539 -/
def empty (c : C F) (o : Nat) : Option Bool :=
  match c.obj o with
  | none => none
  | some b => (c.block b).map fun p => p.1 == -1 || p.1 == -2

/-! ## what it should be: an object is its value -/

/-- the values of the objects after events, latest first -/
def spec : List (Ev F) → Nat → Option (Val F)
  | [] => fun _ => none
  | .make o v :: evs => set (spec evs) o (some v)
  | .copy o o' :: evs => set (spec evs) o (spec evs o')
  | .move o o' :: evs => set (set (spec evs) o' none) o (spec evs o')
  | .drop o :: evs => set (spec evs) o none

/-- what relates the two -/
structure Inv (c : C F) (a : Nat → Option (Val F)) (owners : Nat → List Nat) : Prop where
  nodup : ∀ b, (owners b).Nodup
  mem : ∀ o b, o ∈ owners b ↔ c.obj o = some b
  count : ∀ b k n, c.block b = some (k, n) → n = (owners b).length ∧ 0 < n
  dead : ∀ b, c.block b = none → owners b = []
  keys : ∀ b k n, c.block b = some (k, n) → k = -1 ∨ 0 < k
  distinct : ∀ b b' k n n', c.block b = some (k, n) → c.block b' = some (k, n') → 0 < k → b = b'
  gone : ∀ o, c.obj o = none → a o = none
  value : ∀ o b k n, c.obj o = some b → c.block b = some (k, n) →
    (k = -1 ∧ a o = some .nil) ∨ (0 < k ∧ ∃ v, v ≠ .nil ∧ a o = some v ∧ c.reg k = some v)
  noleak : ∀ k, c.reg k ≠ none → 0 < k ∧ ∃ b n, c.block b = some (k, n)

theorem inv_init : Inv (C.init : C F) (fun _ => none) (fun _ => []) := by
  constructor <;> simp [C.init]

theorem set_same {α β : Type} [DecidableEq α] (f : α → β) (x : α) (y : β) : set f x y x = y := by simp [set]
theorem set_ne {α β : Type} [DecidableEq α] (f : α → β) {x z : α} (y : β) (h : z ≠ x) : set f x y z = f z := by simp [set, h]

theorem Inv.alive {c : C F} {a : Nat → Option (Val F)} {w : Nat → List Nat} (h : Inv c a w) (o b : Nat) (ho : c.obj o = some b) :
    ∃ k n, c.block b = some (k, n) := by
  cases hb : c.block b with
  | some p => exact ⟨p.1, p.2, rfl⟩
  | none =>
    have := (h.mem o b).2 ho
    rw [h.dead b hb] at this
    simp at this

theorem step_inv {c c' : C F} {e : Ev F} {evs : List (Ev F)} {w : Nat → List Nat} (h : Inv c (spec evs) w) (hs : Step c e c') :
    ∃ w', Inv c' (spec (e :: evs)) w' := by
  cases hs with
  | makeNil o b ho hb =>
    have hw := h.dead b hb
    refine ⟨set w b [o], ?_⟩
    constructor
    · intro b'
      by_cases e : b' = b
      · subst e; rw [set_same]; simp
      · rw [set_ne _ _ e]; exact h.nodup b'
    · intro o' b'
      have hm := h.mem o' b'
      by_cases e : b' = b <;> by_cases e' : o' = o
      · subst e e'; simp [set]
      · subst e; rw [hw] at hm; simp only [set, e', if_true, if_false, List.mem_singleton]; simpa using hm
      · subst e'; simp only [set, e, if_true, if_false]
        rw [ho] at hm
        simp only [hm, Option.some.injEq]
        exact ⟨by simp, fun h => absurd h.symm e⟩
      · simp only [set, e, e', if_false]; exact hm
    · intro b' k n hk
      by_cases e : b' = b
      · subst e; simp only [set, if_true, Option.some.injEq, Prod.mk.injEq] at hk ⊢; simp [← hk.2]
      · simp only [set, e, if_false] at hk ⊢; exact h.count b' k n hk
    · intro b' hk
      by_cases e : b' = b
      · subst e; simp [set] at hk
      · simp only [set, e, if_false] at hk ⊢; exact h.dead b' hk
    · intro b' k n hk
      by_cases e : b' = b
      · subst e; simp only [set, if_true, Option.some.injEq, Prod.mk.injEq] at hk; exact .inl hk.1.symm
      · simp only [set, e, if_false] at hk; exact h.keys b' k n hk
    · intro b1 b2 k n n' h1 h2 hk
      by_cases e1 : b1 = b
      · subst e1; simp only [set, if_true, Option.some.injEq, Prod.mk.injEq] at h1; omega
      · by_cases e2 : b2 = b
        · subst e2; simp only [set, if_true, Option.some.injEq, Prod.mk.injEq] at h2; omega
        · simp only [set, e1, e2, if_false] at h1 h2; exact h.distinct _ _ _ _ _ h1 h2 hk
    · intro o' ho'
      by_cases e : o' = o
      · subst e; simp [set] at ho'
      · simp only [set, e, if_false] at ho'
        simp only [spec, set, e, if_false]; exact h.gone o' ho'
    · intro o' b' k n ho' hb'
      by_cases e : o' = o
      · subst e
        simp only [set, if_true, Option.some.injEq] at ho'
        subst ho'
        simp only [set, if_true, Option.some.injEq, Prod.mk.injEq] at hb'
        exact .inl ⟨hb'.1.symm, by simp [spec, set]⟩
      · simp only [set, e, if_false] at ho'
        have hne : b' ≠ b := by
          rintro rfl
          have := (h.mem o' b').2 ho'
          rw [hw] at this; simp at this
        simp only [set, hne, if_false] at hb'
        simp only [spec, set, e, if_false]
        exact h.value o' b' k n ho' hb'
    · intro k hk
      obtain ⟨hpos, b', n, hb'⟩ := h.noleak k hk
      have hne : b' ≠ b := by rintro rfl; rw [hb] at hb'; simp at hb'
      exact ⟨hpos, b', n, by simp only [set, hne, if_false]; exact hb'⟩
  | make o b k v ho hb hv hk0 hk =>
    have hw := h.dead b hb
    have hfree : ∀ b' n, c.block b' ≠ some (k, n) := by
      intro b' n hb'
      have hc := h.count b' k n hb'
      cases hl : w b' with
      | nil => rw [hl] at hc; simp at hc; omega
      | cons o' l =>
        have ho' := (h.mem o' b').1 (by rw [hl]; simp)
        rcases h.value o' b' k n ho' hb' with ⟨h1, -⟩ | ⟨-, v', -, -, h2⟩
        · omega
        · rw [hk] at h2; simp at h2
    refine ⟨set w b [o], ?_⟩
    constructor
    · intro b'
      by_cases e : b' = b
      · subst e; rw [set_same]; simp
      · rw [set_ne _ _ e]; exact h.nodup b'
    · intro o' b'
      have hm := h.mem o' b'
      by_cases e : b' = b <;> by_cases e' : o' = o
      · subst e e'; simp [set]
      · subst e; rw [hw] at hm; simp only [set, e', if_true, if_false, List.mem_singleton]; simpa using hm
      · subst e'; simp only [set, e, if_true, if_false]
        rw [ho] at hm
        simp only [hm, Option.some.injEq]
        exact ⟨by simp, fun h => absurd h.symm e⟩
      · simp only [set, e, e', if_false]; exact hm
    · intro b' k n hk
      by_cases e : b' = b
      · subst e; simp only [set, if_true, Option.some.injEq, Prod.mk.injEq] at hk ⊢; simp [← hk.2]
      · simp only [set, e, if_false] at hk ⊢; exact h.count b' k n hk
    · intro b' hk
      by_cases e : b' = b
      · subst e; simp [set] at hk
      · simp only [set, e, if_false] at hk ⊢; exact h.dead b' hk
    · intro b' k' n hk
      by_cases e : b' = b
      · subst e; simp only [set, if_true, Option.some.injEq, Prod.mk.injEq] at hk; right; omega
      · simp only [set, e, if_false] at hk; exact h.keys b' k' n hk
    · intro b1 b2 k' n n' h1 h2 hk
      by_cases e1 : b1 = b <;> by_cases e2 : b2 = b
      · rw [e1, e2]
      · subst e1
        simp only [set, e2, if_true, if_false, Option.some.injEq, Prod.mk.injEq] at h1 h2
        rw [← h1.1] at h2
        exact absurd h2 (hfree b2 n')
      · subst e2
        simp only [set, e1, if_true, if_false, Option.some.injEq, Prod.mk.injEq] at h1 h2
        rw [← h2.1] at h1
        exact absurd h1 (hfree b1 n)
      · simp only [set, e1, e2, if_false] at h1 h2; exact h.distinct _ _ _ _ _ h1 h2 hk
    · intro o' ho'
      by_cases e : o' = o
      · subst e; simp [set] at ho'
      · simp only [set, e, if_false] at ho'
        simp only [spec, set, e, if_false]; exact h.gone o' ho'
    · intro o' b' k' n ho' hb'
      by_cases e : o' = o
      · subst e
        simp only [set, if_true, Option.some.injEq] at ho'
        subst ho'
        simp only [set, if_true, Option.some.injEq, Prod.mk.injEq] at hb'
        obtain ⟨rfl, -⟩ := hb'
        exact .inr ⟨hk0, v, hv, by simp [spec, set], by simp [set]⟩
      · simp only [set, e, if_false] at ho'
        have hne : b' ≠ b := by
          rintro rfl
          have := (h.mem o' b').2 ho'
          rw [hw] at this; simp at this
        simp only [set, hne, if_false] at hb'
        have hkk : k' ≠ k := by rintro rfl; exact hfree _ _ hb'
        simp only [spec, set, e, hkk, if_false]
        exact h.value o' b' k' n ho' hb'
    · intro k' hk'
      by_cases ek : k' = k
      · exact ⟨by omega, b, 1, by simp [set, ek]⟩
      · simp only [set, ek, if_false] at hk'
        obtain ⟨hpos, b', n, hb'⟩ := h.noleak k' hk'
        have hne : b' ≠ b := by rintro rfl; rw [hb] at hb'; simp at hb'
        exact ⟨hpos, b', n, by simp only [set, hne, if_false]; exact hb'⟩
  | copy o o' b n k ho ho' hb =>
    have hoo : o' ≠ o := by rintro rfl; rw [ho] at ho'; simp at ho'
    have hnot : ∀ b', o ∉ w b' := by intro b' hm; rw [h.mem] at hm; rw [ho] at hm; simp at hm
    refine ⟨set w b (o :: w b), ?_⟩
    constructor
    · intro b'
      by_cases e : b' = b
      · subst e; rw [set_same]; exact List.nodup_cons.2 ⟨hnot _, h.nodup _⟩
      · rw [set_ne _ _ e]; exact h.nodup b'
    · intro x b'
      have hm := h.mem x b'
      by_cases e : b' = b <;> by_cases e' : x = o
      · subst e e'; simp [set]
      · subst e; simp only [set, e', if_true, if_false, List.mem_cons, false_or]; exact hm
      · subst e'; simp only [set, e, if_true, if_false]
        constructor
        · intro hx; exact absurd hx (hnot b')
        · intro hx; exact absurd (Option.some.inj hx).symm e
      · simp only [set, e, e', if_false]; exact hm
    · intro b' k' n' hk
      by_cases e : b' = b
      · subst e
        simp only [set, if_true, Option.some.injEq, Prod.mk.injEq] at hk ⊢
        have := h.count _ _ _ hb
        simp only [List.length_cons]; omega
      · simp only [set, e, if_false] at hk ⊢; exact h.count b' k' n' hk
    · intro b' hk
      by_cases e : b' = b
      · subst e; simp [set] at hk
      · simp only [set, e, if_false] at hk ⊢; exact h.dead b' hk
    · intro b' k' n' hk
      by_cases e : b' = b
      · subst e
        simp only [set, if_true, Option.some.injEq, Prod.mk.injEq] at hk
        rw [← hk.1]; exact h.keys _ _ _ hb
      · simp only [set, e, if_false] at hk; exact h.keys b' k' n' hk
    · intro b1 b2 k' n1 n2 h1 h2 hk
      have get : ∀ b' m, set c.block b (some (k, n + 1)) b' = some (k', m) → ∃ m', c.block b' = some (k', m') := by
        intro b' m hx
        by_cases e : b' = b
        · subst e
          simp only [set, if_true, Option.some.injEq, Prod.mk.injEq] at hx
          exact ⟨n, by rw [hb, hx.1]⟩
        · simp only [set, e, if_false] at hx; exact ⟨m, hx⟩
      obtain ⟨m1, e1⟩ := get _ _ h1
      obtain ⟨m2, e2⟩ := get _ _ h2
      exact h.distinct _ _ _ _ _ e1 e2 hk
    · intro x hx
      by_cases e : x = o
      · subst e; simp [set] at hx
      · simp only [set, e, if_false] at hx
        simp only [spec, set, e, if_false]; exact h.gone x hx
    · intro x b' k' n' hx hb'
      have hbk : c.block b' = some (k', n') ∨ (b' = b ∧ k' = k) := by
        by_cases e : b' = b
        · subst e
          simp only [set, if_true, Option.some.injEq, Prod.mk.injEq] at hb'
          exact .inr ⟨rfl, hb'.1.symm⟩
        · simp only [set, e, if_false] at hb'; exact .inl hb'
      have hblock : ∃ m, c.block b' = some (k', m) := by
        rcases hbk with h1 | ⟨rfl, rfl⟩
        · exact ⟨_, h1⟩
        · exact ⟨n, hb⟩
      obtain ⟨m, hm⟩ := hblock
      by_cases e : x = o
      · subst e
        simp only [set, if_true, Option.some.injEq] at hx
        subst hx
        simp only [spec, set, if_true]
        exact h.value o' b k' m ho' hm
      · simp only [set, e, if_false] at hx
        simp only [spec, set, e, if_false]
        exact h.value x b' k' m hx hm
    · intro k' hk'
      obtain ⟨hpos, b', n', hb'⟩ := h.noleak k' hk'
      by_cases e : b' = b
      · subst e
        rw [hb] at hb'
        simp only [Option.some.injEq, Prod.mk.injEq] at hb'
        exact ⟨hpos, b', n + 1, by simp [set, hb'.1]⟩
      · exact ⟨hpos, b', n', by simp only [set, e, if_false]; exact hb'⟩
  | move o o' b ho ho' =>
    have hoo : o' ≠ o := by rintro rfl; rw [ho] at ho'; simp at ho'
    have hnot : ∀ b', o ∉ w b' := by intro b' hm; rw [h.mem] at hm; rw [ho] at hm; simp at hm
    have hmem : o' ∈ w b := (h.mem o' b).2 ho'
    have hblk := h.alive o' b ho'
    refine ⟨set w b (o :: (w b).erase o'), ?_⟩
    constructor
    · intro b'
      by_cases e : b' = b
      · subst e; rw [set_same]
        exact List.nodup_cons.2 ⟨fun hx => hnot _ (List.mem_of_mem_erase hx), (h.nodup _).erase _⟩
      · rw [set_ne _ _ e]; exact h.nodup b'
    · intro x b'
      have hm := h.mem x b'
      by_cases e' : x = o
      · subst e'
        by_cases e : b' = b
        · subst e; simp [set]
        · simp only [set, e, if_true, if_false]
          exact ⟨fun hx => absurd hx (hnot b'), fun hx => absurd (Option.some.inj hx).symm e⟩
      · by_cases ex : x = o'
        · subst ex
          simp only [set, e', if_true, if_false]
          by_cases e : b' = b
          · subst e
            simp only [if_true, List.mem_cons, e', false_or, reduceCtorEq, iff_false]
            exact fun hx => ((h.nodup b').mem_erase_iff.1 hx).1 rfl
          · simp only [e, if_false, reduceCtorEq, iff_false]
            intro hx
            rw [hm, ho'] at hx
            exact e (Option.some.inj hx).symm
        · simp only [set, e', ex, if_false]
          by_cases e : b' = b
          · subst e
            simp only [if_true, List.mem_cons, e', false_or]
            rw [List.mem_erase_of_ne ex]; exact hm
          · simp only [e, if_false]; exact hm
    · intro b' k' n' hk
      have := h.count b' k' n' hk
      by_cases e : b' = b
      · subst e
        simp only [set, if_true, List.length_cons, List.length_erase_of_mem hmem]
        have := List.length_pos_of_mem hmem
        omega
      · simp only [set, e, if_false]; exact this
    · intro b' hk
      by_cases e : b' = b
      · subst e; obtain ⟨k, n, hb⟩ := hblk; rw [hb] at hk; simp at hk
      · simp only [set, e, if_false]; exact h.dead b' hk
    · exact h.keys
    · exact h.distinct
    · intro x hx
      by_cases e : x = o
      · subst e; simp [set] at hx
      · simp only [set, e, if_false] at hx
        simp only [spec, set, e, if_false]
        by_cases ex : x = o'
        · simp [ex]
        · simp only [ex, if_false] at hx ⊢; exact h.gone x hx
    · intro x b' k' n' hx hb'
      by_cases e : x = o
      · subst e
        simp only [set, if_true, Option.some.injEq] at hx
        subst hx
        simp only [spec, set, if_true]
        exact h.value o' b k' n' ho' hb'
      · simp only [set, e, if_false] at hx
        simp only [spec, set, e, if_false]
        by_cases ex : x = o'
        · simp [ex] at hx
        · simp only [ex, if_false] at hx ⊢; exact h.value x b' k' n' hx hb'
    · exact h.noleak
  | drop o b n k ho hb =>
    have hmem : o ∈ w b := (h.mem o b).2 ho
    refine ⟨set w b ((w b).erase o), ?_⟩
    have get : ∀ b' k' m, set c.block b (some (k, n + 1)) b' = some (k', m) → ∃ m', c.block b' = some (k', m') := by
      intro b' k' m hx
      by_cases e : b' = b
      · subst e
        simp only [set, if_true, Option.some.injEq, Prod.mk.injEq] at hx
        exact ⟨n + 2, by rw [hb, hx.1]⟩
      · simp only [set, e, if_false] at hx; exact ⟨m, hx⟩
    constructor
    · intro b'
      by_cases e : b' = b
      · subst e; rw [set_same]; exact (h.nodup _).erase _
      · rw [set_ne _ _ e]; exact h.nodup b'
    · intro x b'
      have hm := h.mem x b'
      by_cases ex : x = o
      · subst ex
        simp only [set, if_true, reduceCtorEq, iff_false]
        by_cases e : b' = b
        · subst e; simp only [if_true]; exact fun hx => ((h.nodup b').mem_erase_iff.1 hx).1 rfl
        · simp only [e, if_false]; intro hx; rw [hm, ho] at hx; exact e (Option.some.inj hx).symm
      · simp only [set, ex, if_false]
        by_cases e : b' = b
        · subst e; simp only [if_true]; rw [List.mem_erase_of_ne ex]; exact hm
        · simp only [e, if_false]; exact hm
    · intro b' k' n' hk
      by_cases e : b' = b
      · subst e
        simp only [set, if_true, Option.some.injEq, Prod.mk.injEq] at hk ⊢
        have := (h.count _ _ _ hb).1
        rw [List.length_erase_of_mem hmem]; omega
      · simp only [set, e, if_false] at hk ⊢; exact h.count b' k' n' hk
    · intro b' hk
      by_cases e : b' = b
      · subst e; simp [set] at hk
      · simp only [set, e, if_false] at hk ⊢; exact h.dead b' hk
    · intro b' k' n' hk
      obtain ⟨m, hm⟩ := get _ _ _ hk
      exact h.keys _ _ _ hm
    · intro b1 b2 k' n1 n2 h1 h2 hk
      obtain ⟨m1, e1⟩ := get _ _ _ h1
      obtain ⟨m2, e2⟩ := get _ _ _ h2
      exact h.distinct _ _ _ _ _ e1 e2 hk
    · intro x hx
      by_cases e : x = o
      · subst e; simp [spec, set]
      · simp only [set, e, if_false] at hx
        simp only [spec, set, e, if_false]; exact h.gone x hx
    · intro x b' k' n' hx hb'
      obtain ⟨m, hm⟩ := get _ _ _ hb'
      by_cases e : x = o
      · subst e; simp [set] at hx
      · simp only [set, e, if_false] at hx
        simp only [spec, set, e, if_false]
        exact h.value x b' k' m hx hm
    · intro k' hk'
      obtain ⟨hpos, b', n', hb'⟩ := h.noleak k' hk'
      by_cases e : b' = b
      · subst e
        rw [hb] at hb'
        simp only [Option.some.injEq, Prod.mk.injEq] at hb'
        exact ⟨hpos, b', n + 1, by simp [set, hb'.1]⟩
      · exact ⟨hpos, b', n', by simp only [set, e, if_false]; exact hb'⟩
  | dropLast o b k ho hb =>
    have hmem : o ∈ w b := (h.mem o b).2 ho
    have hone : w b = [o] := by
      have := (h.count _ _ _ hb).1
      match hl : w b with
      | [] => rw [hl] at hmem; simp at hmem
      | [x] => rw [hl] at hmem; simp only [List.mem_singleton] at hmem; rw [hmem]
      | _ :: _ :: _ => rw [hl] at this; simp at this
    have other : ∀ x b', c.obj x = some b' → x ≠ o → b' ≠ b := by
      rintro x b' hx hne rfl
      have := (h.mem x b').2 hx
      rw [hone, List.mem_singleton] at this
      exact hne this
    refine ⟨set w b [], ?_⟩
    constructor
    · intro b'
      by_cases e : b' = b
      · subst e; rw [set_same]; simp
      · rw [set_ne _ _ e]; exact h.nodup b'
    · intro x b'
      have hm := h.mem x b'
      by_cases ex : x = o
      · subst ex
        simp only [set, if_true, reduceCtorEq, iff_false]
        by_cases e : b' = b
        · simp [e]
        · simp only [e, if_false]; intro hx; rw [hm, ho] at hx; exact e (Option.some.inj hx).symm
      · simp only [set, ex, if_false]
        by_cases e : b' = b
        · subst e
          simp only [if_true, List.not_mem_nil, false_iff]
          intro hx; exact other x b' hx ex rfl
        · simp only [e, if_false]; exact hm
    · intro b' k' n' hk
      by_cases e : b' = b
      · subst e; simp [set] at hk
      · simp only [set, e, if_false] at hk ⊢; exact h.count b' k' n' hk
    · intro b' hk
      by_cases e : b' = b
      · subst e; simp [set]
      · simp only [set, e, if_false] at hk ⊢; exact h.dead b' hk
    · intro b' k' n' hk
      by_cases e : b' = b
      · subst e; simp [set] at hk
      · simp only [set, e, if_false] at hk; exact h.keys b' k' n' hk
    · intro b1 b2 k' n1 n2 h1 h2 hk
      by_cases e1 : b1 = b
      · subst e1; simp [set] at h1
      · by_cases e2 : b2 = b
        · subst e2; simp [set] at h2
        · simp only [set, e1, e2, if_false] at h1 h2; exact h.distinct _ _ _ _ _ h1 h2 hk
    · intro x hx
      by_cases e : x = o
      · subst e; simp [spec, set]
      · simp only [set, e, if_false] at hx
        simp only [spec, set, e, if_false]; exact h.gone x hx
    · intro x b' k' n' hx hb'
      by_cases e : x = o
      · subst e; simp [set] at hx
      · simp only [set, e, if_false] at hx
        have hne := other x b' hx e
        simp only [set, hne, if_false] at hb'
        simp only [spec, set, e, if_false]
        have hv := h.value x b' k' n' hx hb'
        have hreg : 0 < k' → (if k < 0 then c.reg else set c.reg k none) k' = c.reg k' := by
          intro hk'
          split
          · rfl
          · have : k' ≠ k := by rintro rfl; exact hne (h.distinct _ _ _ _ _ hb' hb hk')
            simp [set, this]
        rcases hv with hv | ⟨h1, v, h2, h3, h4⟩
        · exact .inl hv
        · exact .inr ⟨h1, v, h2, h3, by rw [← h4]; exact hreg h1⟩
    · intro k' hk'
      have hk2 : c.reg k' ≠ none ∧ (0 ≤ k → k' ≠ k) := by
        by_cases hneg : k < 0
        · simp only [hneg, if_true] at hk'; exact ⟨hk', fun h => by omega⟩
        · simp only [hneg, if_false, set] at hk'
          by_cases e : k' = k
          · simp [e] at hk'
          · simp only [e, if_false] at hk'; exact ⟨hk', fun _ => e⟩
      obtain ⟨hpos, b', n', hb'⟩ := h.noleak k' hk2.1
      have hne : b' ≠ b := by
        rintro rfl
        rw [hb] at hb'
        simp only [Option.some.injEq, Prod.mk.injEq] at hb'
        exact hk2.2 (by omega) hb'.1.symm
      exact ⟨hpos, b', n', by simp only [set, hne, if_false]; exact hb'⟩
  | dropNull o ho =>
    refine ⟨w, ?_⟩
    have e : spec (.drop o :: evs) = spec evs := by
      funext x
      simp only [spec, set]
      split
      · rename_i e; rw [e, h.gone o ho]
      · rfl
    rw [e]; exact h

theorem run_inv {evs : List (Ev F)} {c : C F} (h : Run evs c) : ∃ w, Inv c (spec evs) w := by
  induction h with
  | nil => exact ⟨_, inv_init⟩
  | cons e _ hs ih => obtain ⟨w, hw⟩ := ih; exact step_inv hw hs

/-! ## C74 -/

/-- C74: whatever is created, copied, moved and destroyed in whatever order, each object that
still holds a reference gives exactly the value it was made from, and says it is empty exactly
when that value was nil -/
theorem C74_value {evs : List (Ev F)} {c : C F} (h : Run evs c) (o : Nat) :
    push c o = spec evs o ∧ empty c o = (spec evs o).map fun v => match v with | .nil => true | _ => false := by
  obtain ⟨w, hw⟩ := run_inv h
  cases ho : c.obj o with
  | none => simp [push, empty, ho, hw.gone o ho]
  | some b =>
    obtain ⟨k, n, hb⟩ := hw.alive o b ho
    rcases hw.value o b k n ho hb with ⟨rfl, h2⟩ | ⟨h1, v, hv, h2, h3⟩
    · have : c.reg (-1) = none := by
        cases hr : c.reg (-1) with
        | none => rfl
        | some v => have := (hw.noleak (-1) (by rw [hr]; simp)).1; omega
      simp [push, empty, ho, hb, h2, this]
    · have e1 : (k == -1 || k == -2) = false := by simp; omega
      simp only [push, empty, ho, hb, h2, h3, Option.getD_some, Option.map_some, e1, true_and]

/-- C74: the registry holds exactly one entry for each group of copies of a non-nil value: an
entry in use belongs to a living object, so when the last copy is gone nothing is left -/
theorem C74_released {evs : List (Ev F)} {c : C F} (h : Run evs c) :
    (∀ k v, c.reg k = some v → ∃ o, spec evs o = some v ∧ push c o = some v) ∧
    ((∀ o, spec evs o = none) → c.reg = fun _ => none) := by
  obtain ⟨w, hw⟩ := run_inv h
  have key : ∀ k v, c.reg k = some v → ∃ o, spec evs o = some v := by
    intro k v hk
    obtain ⟨hpos, b, n, hb⟩ := hw.noleak k (by rw [hk]; simp)
    have hc := hw.count b k n hb
    cases hl : w b with
    | nil => rw [hl] at hc; simp at hc; omega
    | cons o l =>
      have ho := (hw.mem o b).1 (by rw [hl]; simp)
      rcases hw.value o b k n ho hb with ⟨h1, -⟩ | ⟨-, v', -, h2, h3⟩
      · omega
      · rw [hk] at h3; exact ⟨o, by rw [h2, ← h3]⟩
  refine ⟨fun k v hk => ?_, fun hall => ?_⟩
  · obtain ⟨o, ho⟩ := key k v hk
    exact ⟨o, ho, by rw [(C74_value h o).1, ho]⟩
  · funext k
    cases hk : c.reg k with
    | none => rfl
    | some v => obtain ⟨o, ho⟩ := key k v hk; rw [hall o] at ho; simp at ho

/-- C74: destroying or reusing one object never changes what another one gives, and never stops:
every event on objects in the right state can happen -/
theorem C74_others {evs : List (Ev F)} {c : C F} (h : Run evs c) (o : Nat) :
    (∃ c', Step c (.drop o) c') ∧
    ∀ c', Step c (.drop o) c' → push c' o = none ∧ ∀ o', o' ≠ o → push c' o' = push c o' := by
  refine ⟨?_, fun c' hs => ?_⟩
  · obtain ⟨w, hw⟩ := run_inv h
    cases ho : c.obj o with
    | none => exact ⟨_, .dropNull o ho⟩
    | some b =>
      obtain ⟨k, n, hb⟩ := hw.alive o b ho
      have := (hw.count b k n hb).2
      match n, hb with
      | 1, hb => exact ⟨_, .dropLast o b k ho hb⟩
      | n + 2, hb => exact ⟨_, .drop o b n k ho hb⟩
  · have h' := Run.cons _ h hs
    refine ⟨?_, fun o' hne => ?_⟩
    · rw [(C74_value h' o).1]; simp [spec, set]
    · rw [(C74_value h' o').1, (C74_value h o').1]; simp [spec, set, hne]

/-- made, copied, the original destroyed, a second value made under another key, the copy moved:
the first value is still there -/
example : ∃ c : C Nat, Run [.move 3 1, .make 2 (.bool false), .drop 0, .copy 1 0, .make 0 (.bool true)] c ∧
    push c 3 = some (.bool true) ∧ push c 2 = some (.bool false) ∧ push c 1 = none := by
  refine ⟨_, .cons _ (.cons _ (.cons _ (.cons _ (.cons _ .nil
    (.make 0 0 1 (.bool true) rfl rfl (by simp) (by decide) rfl)) (.copy 1 0 0 1 1 rfl rfl rfl))
    (.drop 0 0 0 1 rfl rfl)) (.make 2 1 2 (.bool false) rfl rfl (by simp) (by decide) rfl)) (.move 3 1 0 rfl rfl), ?_⟩
  exact ⟨rfl, rfl, rfl⟩

/-- `C74_value`: the copy outlives the original -/
example {c : C Nat} (h : Run [.drop 0, .copy 1 0, .make 0 (.bool true)] c) : push c 1 = some (.bool true) := by
  rw [(C74_value h 1).1]; rfl

end Verif.LuaStack.Refs
