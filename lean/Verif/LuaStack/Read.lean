import Verif.LuaStack.Ops
import Verif.Common.Outcome

/-!
# Conversions as a function of the value alone

`get` works on the Lua stack.  With enough slots its answer depends only on the value on top and
on the tables: this file gives that function and proves the stack program computes it.
-/

namespace Verif.LuaStack

variable {F : Type}

/-- the exception a failed conversion throws -/
def mismatch {α : Type} : Outcome α := .throws "runtime_error"

/-- `f first, f (first + 1), ...`, `k` of them, in order -/
def readAll {α : Type} (f : Int → Outcome α) (first : Int) : Nat → Outcome (List α)
  | 0 => .ok []
  | k + 1 => do
    let a ← f first
    let rest ← readAll f (first + 1) k
    .ok (a :: rest)

/-- what a table gives, and anything else is refused: embed_lua.h:180-183, 217-220, 261-264 -/
def ofTable {α : Type} (v : Val F) (f : Nat → Outcome α) : Outcome α :=
  match v with
  | .table a => f a
  | _ => mismatch

/-- `lua_value<bool>::get`, embed_lua.h:130-139 -/
def ofBool : Val F → Outcome (CVal F)
  | .bool b => .ok (.bool b)
  | _ => mismatch

/-- an element of a row, embed_lua.h:276: `lua_rawgeti` of something that is not a table is
undefined -/
def ofRow {α : Type} (v : Val F) (f : Nat → Outcome α) : Outcome α :=
  match v with
  | .table a => f a
  | _ => .ub

/-- the answer of `lua_value<T>::get`, embed_lua.h:87-285, as a function of the value -/
def read (L : Lua F) (m : Mem F) : Ty → Val F → Outcome (CVal F)
  | .int t, v => match toNum L v with
    | none => mismatch
    | some _ => .ok (.int (t.wrap (toInteger L v)))
  | .float, v => match toNum L v with
    | none => mismatch
    | some n => .ok (.num (asFloat L n))
  | .bool, v => ofBool v
  | .str, v => match toStr L v with
    | none => mismatch
    | some b => .ok (.str (cstr b))
  | .vec t, v => ofTable v fun a => do
    let cs ← readAll (fun i => read L m t ((m.heap a).geti i)) 1 (m.heap a).len
    .ok (.list cs)
  | .arr t N, v => ofTable v fun a =>
    if (m.heap a).len ≠ N then mismatch
    else do
      let cs ← readAll (fun i => read L m t ((m.heap a).geti i)) 1 N
      .ok (.list cs)
  | .mat t M N, v => ofTable v fun a =>
    if (m.heap a).len ≠ M then mismatch
    else do
      let rows ← readAll (fun i => do
        let row ← readAll (fun j => ofRow ((m.heap a).geti i) fun b => read L m t ((m.heap b).geti j)) 1 N
        .ok (CVal.list row)) 1 M
      .ok (.list rows)

/-- a stack program that returns what `o` says and leaves `s'`; when it throws, `T` holds -/
def Does {α : Type} (r : R F α) (o : Outcome α) (s' : St F) (T : St F → Prop) : Prop :=
  match o with
  | .ok a => r = .ok a s'
  | .throws _ => ∃ s'', r = .throw s'' ∧ T s''
  | .ub => r = .ub
  | _ => False

theorem Does.bind {α β : Type} {x : M F α} {f : α → M F β} {o : Outcome α} {g : α → Outcome β} {s s' s'' : St F}
    {T : St F → Prop} (h : Does (x s) o s' T) (hf : ∀ a, Does (f a s') (g a) s'' T) :
    Does ((x >>= f) s) (o >>= g) s'' T := by
  cases o with
  | ok a => rw [bind_of_ok h]; exact hf a
  | throws k => obtain ⟨s1, h, ht⟩ := h; rw [bind_of_throw h]; exact ⟨s1, rfl, ht⟩
  | ub => rw [bind_of_ub h]; rfl
  | _ => exact h.elim

theorem Does.pre {α β : Type} {x : M F α} {f : α → M F β} {a : α} {o : Outcome β} {s s' s'' : St F}
    {T : St F → Prop} (h : x s = .ok a s') (hf : Does (f a s') o s'' T) : Does ((x >>= f) s) o s'' T := by
  rwa [bind_of_ok h]

theorem Does.mono {α : Type} {r : R F α} {o : Outcome α} {s' : St F} {T T' : St F → Prop} (h : Does r o s' T)
    (ht : ∀ s, T s → T' s) : Does r o s' T' := by
  cases o with
  | throws k => obtain ⟨s1, h1, h2⟩ := h; exact ⟨s1, h1, ht _ h2⟩
  | _ => exact h

theorem collect_does {α : Type} {body : Int → M F α} {f : Int → Outcome α} {s : St F} {T : St F → Prop}
    (h : ∀ i, Does (body i s) (f i) s T) : ∀ (k : Nat) (first : Int), Does (collect body first k s) (readAll f first k) s T := by
  intro k
  induction k with
  | zero => intro first; exact rfl
  | succ k ih =>
    intro first
    exact Does.bind (h first) fun a => Does.bind (ih (first + 1)) fun as => rfl

/-- with room for `depth t` more values, the stack program is `read` -/
theorem get_read (L : Lua F) (t : Ty) : ∀ (s : St F) (v : Val F) (rest : List (Val F)),
    rest.length + 1 + depth t ≤ s.cap →
    Does (get L t (-1) (s.on (v :: rest))) (read L s.mem t v) (s.on rest)
      (fun s' => ∃ l, l.length ≤ depth t ∧ s' = s.on (l ++ v :: rest)) := by
  induction t with
  | int t =>
    intro s v rest _
    rw [get, read]
    refine Does.pre (peek_top s v rest) ?_
    cases toNum L v with
    | none => exact ⟨_, rfl, [], by simp, rfl⟩
    | some n => exact Does.pre (remove_top s v rest) rfl
  | float =>
    intro s v rest _
    rw [get, read]
    refine Does.pre (peek_top s v rest) ?_
    cases toNum L v with
    | none => exact ⟨_, rfl, [], by simp, rfl⟩
    | some n => exact Does.pre (remove_top s v rest) rfl
  | bool =>
    intro s v rest _
    rw [get, read]
    refine Does.pre (peek_top s v rest) ?_
    cases v with
    | bool b => exact Does.pre (remove_top s _ rest) rfl
    | _ => exact ⟨_, rfl, [], by simp, rfl⟩
  | str =>
    intro s v rest _
    rw [get, read]
    refine Does.pre (peek_top s v rest) ?_
    cases toStr L v with
    | none => exact ⟨_, rfl, [], by simp, rfl⟩
    | some n => exact Does.pre (remove_top s v rest) rfl
  | vec t ih =>
    intro s v rest hc
    simp only [depth] at hc
    rw [get, read]
    obtain ⟨a, rfl, h⟩ | ⟨hn, h⟩ := checkIsTable_top s v rest
    · refine Does.pre h (Does.pre (rawlenTop_eq s _ _) ?_)
      simp only [ofTable, rawlen]
      refine Does.bind (s' := s.on (.table a :: rest)) (collect_does (fun i => ?_) _ _) fun cs => ?_
      · refine Does.pre (rawgeti_eq s a rest i (by omega)) ?_
        refine (ih s ((s.mem.heap a).geti i) (.table a :: rest) (by simp; omega)).mono ?_
        rintro s' ⟨l, hl, rfl⟩
        exact ⟨l ++ [(s.mem.heap a).geti i], by simp [depth]; omega, by simp⟩
      · exact Does.pre (remove_top s _ rest) rfl
    · cases v with
      | table a => exact absurd rfl (hn a)
      | _ => exact ⟨_, bind_of_throw h, [], by simp, rfl⟩
  | arr t N ih =>
    intro s v rest hc
    simp only [depth] at hc
    rw [get, read]
    obtain ⟨a, rfl, h⟩ | ⟨hn, h⟩ := checkIsTable_top s v rest
    · refine Does.pre h (Does.pre (rawlenTop_eq s _ _) ?_)
      simp only [ofTable]
      have hr : rawlen s.mem (.table a) = (s.mem.heap a).len := rfl
      by_cases hN : (s.mem.heap a).len = N
      · rw [if_neg (show ¬ rawlen s.mem (.table a) ≠ N by simpa [rawlen] using hN), if_neg (show ¬ (s.mem.heap a).len ≠ N by simpa using hN), hr, hN, Nat.min_self]
        refine Does.bind (s' := s.on (.table a :: rest)) (collect_does (fun i => ?_) _ _) fun cs => ?_
        · refine Does.pre (rawgeti_eq s a rest i (by omega)) ?_
          refine (ih s ((s.mem.heap a).geti i) (.table a :: rest) (by simp; omega)).mono ?_
          rintro s' ⟨l, hl, rfl⟩
          exact ⟨l ++ [(s.mem.heap a).geti i], by simp [depth]; omega, by simp⟩
        · exact Does.pre (remove_top s _ rest) rfl
      · rw [if_pos (show rawlen s.mem (.table a) ≠ N from hN), if_pos hN]
        exact ⟨_, rfl, [], by simp, rfl⟩
    · cases v with
      | table a => exact absurd rfl (hn a)
      | _ => exact ⟨_, bind_of_throw h, [], by simp, rfl⟩
  | mat t M N ih =>
    intro s v rest hc
    simp only [depth] at hc
    rw [get, read]
    obtain ⟨a, rfl, h⟩ | ⟨hn, h⟩ := checkIsTable_top s v rest
    · refine Does.pre h (Does.pre (rawlenTop_eq s _ _) ?_)
      simp only [ofTable]
      have hr : rawlen s.mem (.table a) = (s.mem.heap a).len := rfl
      by_cases hM : (s.mem.heap a).len = M
      · rw [if_neg (show ¬ rawlen s.mem (.table a) ≠ M by simpa [rawlen] using hM), if_neg (show ¬ (s.mem.heap a).len ≠ M by simpa using hM)]
        refine Does.bind (s' := s.on (.table a :: rest)) (collect_does (fun i => ?_) _ _) fun cs => ?_
        · refine Does.pre (rawgeti_eq s a rest i (by omega)) ?_
          generalize (s.mem.heap a).geti i = w
          refine Does.bind (s' := s.on (w :: .table a :: rest)) (collect_does (fun j => ?_) _ _) fun cs => ?_
          · cases w with
            | table b =>
              refine Does.pre (rawgeti_eq s b (.table a :: rest) j (by simp; omega)) ?_
              refine (ih s ((s.mem.heap b).geti j) (.table b :: .table a :: rest) (by simp; omega)).mono ?_
              rintro s' ⟨l, hl, rfl⟩
              exact ⟨l ++ [(s.mem.heap b).geti j, .table b], by simp [depth]; omega, by simp⟩
            | _ => exact bind_of_ub (by rfl)
          · exact Does.pre (remove_top s w _) rfl
        · exact Does.pre (remove_top s _ rest) rfl
      · rw [if_pos (show rawlen s.mem (.table a) ≠ M from hM), if_pos hM]
        exact ⟨_, rfl, [], by simp, rfl⟩
    · cases v with
      | table a => exact absurd rfl (hn a)
      | _ => exact ⟨_, bind_of_throw h, [], by simp, rfl⟩

theorem readAll_ok {α : Type} (f : Int → Outcome α) : ∀ (k : Nat) (first : Int) (cs : List α),
    readAll f first k = .ok cs ↔ cs.length = k ∧ ∀ (i : Nat) (h : i < cs.length), f (first + i) = .ok cs[i] := by
  intro k
  induction k with
  | zero =>
    intro first cs
    cases cs <;> simp [readAll]
  | succ k ih =>
    intro first cs
    cases cs with
    | nil =>
      simp only [readAll, List.length_nil]
      constructor
      · intro h
        cases h1 : f first with
        | ok a =>
          rw [h1, Outcome.bind_ok] at h
          cases h2 : readAll f (first + 1) k with
          | ok as => rw [h2, Outcome.bind_ok] at h; cases h
          | _ => rw [h2] at h; cases h
        | _ => rw [h1] at h; cases h
      · rintro ⟨h, -⟩; omega
    | cons c cs =>
      simp only [readAll, List.length_cons]
      constructor
      · intro h
        cases h1 : f first with
        | ok a =>
          rw [h1, Outcome.bind_ok] at h
          cases h2 : readAll f (first + 1) k with
          | ok as =>
            rw [h2, Outcome.bind_ok] at h
            cases h
            obtain ⟨hl, hi⟩ := (ih _ _).mp h2
            refine ⟨by rw [hl], ?_⟩
            rintro (_ | i) hlt
            · simpa using h1
            · have := hi i (by simpa using hlt)
              rw [List.getElem_cons_succ, ← this]; congr 1; push_cast; omega
          | _ => rw [h2] at h; cases h
        | _ => rw [h1] at h; cases h
      · rintro ⟨hl, hi⟩
        have h1 := hi 0 (by simp)
        simp only [Int.natCast_zero, Int.add_zero, List.getElem_cons_zero] at h1
        have h2 : readAll f (first + 1) k = .ok cs := (ih _ _).mpr ⟨by omega, fun i hlt => by
          have := hi (i + 1) (by omega)
          rw [List.getElem_cons_succ] at this
          rw [← this]; congr 1; push_cast; omega⟩
        rw [h1, Outcome.bind_ok, h2]; rfl

end Verif.LuaStack
