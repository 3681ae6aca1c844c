import Verif.LuaStack.Model

/-! # Lemmas about the Lua stack machine -/

namespace Verif.LuaStack

variable {F : Type}

theorem bind_of_ok {α β : Type} {x : M F α} {f : α → M F β} {s s' : St F} {a : α} (h : x s = .ok a s') :
    (x >>= f) s = f a s' := by
  show (match x s with | .ok a s' => f a s' | .throw s' => R.throw s' | .ub => .ub) = _
  rw [h]

theorem bind_of_throw {α β : Type} {x : M F α} {f : α → M F β} {s s' : St F} (h : x s = .throw s') :
    (x >>= f) s = .throw s' := by
  show (match x s with | .ok a s' => f a s' | .throw s' => R.throw s' | .ub => .ub) = _
  rw [h]

theorem bind_of_ub {α β : Type} {x : M F α} {f : α → M F β} {s : St F} (h : x s = .ub) : (x >>= f) s = .ub := by
  show (match x s with | .ok a s' => f a s' | .throw s' => R.throw s' | .ub => .ub) = _
  rw [h]

theorem bind_inv {α β : Type} {x : M F α} {f : α → M F β} {s s' : St F} {b : β} (h : (x >>= f) s = .ok b s') :
    ∃ a s1, x s = .ok a s1 ∧ f a s1 = .ok b s' := by
  cases hx : x s with
  | ok a s1 => exact ⟨a, s1, rfl, by rwa [bind_of_ok hx] at h⟩
  | throw s1 => rw [bind_of_throw hx] at h; cases h
  | ub => rw [bind_of_ub hx] at h; cases h

@[simp] theorem pure_apply {α : Type} (a : α) (s : St F) : (pure a : M F α) s = .ok a s := rfl

/-- outcome of a call: what holds after returning, after throwing, and when undefined -/
def Post {α : Type} (r : R F α) (Q : α → St F → Prop) (T : St F → Prop) (U : Prop) : Prop :=
  match r with
  | .ok a s => Q a s
  | .throw s => T s
  | .ub => U

theorem Post.bind {α β : Type} {x : M F α} {f : α → M F β} {s : St F} {Q : α → St F → Prop} {Q' : β → St F → Prop}
    {T : St F → Prop} {U : Prop} (h : Post (x s) Q T U) (hf : ∀ a s', Q a s' → Post (f a s') Q' T U) :
    Post ((x >>= f) s) Q' T U := by
  cases hx : x s with
  | ok a s1 => rw [bind_of_ok hx]; rw [hx] at h; exact hf _ _ h
  | throw s1 => rw [bind_of_throw hx]; rw [hx] at h; exact h
  | ub => rw [bind_of_ub hx]; rw [hx] at h; exact h

theorem Post.mono {α : Type} {r : R F α} {Q Q' : α → St F → Prop} {T T' : St F → Prop} {U U' : Prop}
    (h : Post r Q T U) (hQ : ∀ a s, Q a s → Q' a s) (hT : ∀ s, T s → T' s) (hU : U → U') : Post r Q' T' U' := by
  cases r with
  | ok a s => exact hQ _ _ h
  | throw s => exact hT _ h
  | ub => exact hU h

/-- the state with another stack -/
def St.on (s : St F) (l : List (Val F)) : St F := { s with stack := l }

@[simp] theorem St.on_stack (s : St F) (l : List (Val F)) : (s.on l).stack = l := rfl
@[simp] theorem St.on_cap (s : St F) (l : List (Val F)) : (s.on l).cap = s.cap := rfl
@[simp] theorem St.on_mem (s : St F) (l : List (Val F)) : (s.on l).mem = s.mem := rfl
@[simp] theorem St.on_on (s : St F) (l l' : List (Val F)) : (s.on l).on l' = s.on l' := rfl
theorem St.on_self (s : St F) : s.on s.stack = s := rfl

theorem peek_top (s : St F) (v : Val F) (rest : List (Val F)) : peek (-1) (s.on (v :: rest)) = .ok v (s.on (v :: rest)) := by
  simp [peek, depthOf]

theorem peek_nil (s : St F) : peek (-1) (s.on []) = .ok s.base (s.on []) := by
  simp [peek, depthOf, St.on]

theorem remove_top (s : St F) (v : Val F) (rest : List (Val F)) : remove (-1) (s.on (v :: rest)) = .ok () (s.on rest) := by
  simp [remove, depthOf, St.on]

theorem push_eq (s : St F) (v : Val F) (l : List (Val F)) (h : l.length < s.cap) :
    push v (s.on l) = .ok () (s.on (v :: l)) := by
  simp [push, h, St.on]

theorem rawlenTop_eq (s : St F) (v : Val F) (rest : List (Val F)) :
    rawlenTop (s.on (v :: rest)) = .ok (rawlen s.mem v) (s.on (v :: rest)) := by
  simp [rawlenTop, peek_top]

theorem rawgeti_eq (s : St F) (a : Nat) (rest : List (Val F)) (i : Int) (h : rest.length + 1 < s.cap) :
    rawgeti i (s.on (.table a :: rest)) = .ok () (s.on ((s.mem.heap a).geti i :: .table a :: rest)) := by
  simp only [rawgeti, St.on_stack, St.on_mem]
  exact push_eq s _ _ h

theorem rawgeti_full (s : St F) (a : Nat) (rest : List (Val F)) (i : Int) (h : ¬ rest.length + 1 < s.cap) :
    rawgeti i (s.on (.table a :: rest)) = .ub := by
  simp only [rawgeti, St.on_stack, St.on_mem]
  simp [push, h, St.on]

/-- the slots a conversion needs beside its argument -/
def depth : Ty → Nat
  | .vec t | .arr t _ => depth t + 1
  | .mat t _ _ => depth t + 2
  | _ => 0

/-- no matrices inside -/
def NoMat : Ty → Prop
  | .vec t | .arr t _ => NoMat t
  | .mat _ _ _ => False
  | _ => True

theorem collect_post {α : Type} {body : Int → M F α} {s : St F} {T : St F → Prop} {U : Prop}
    (h : ∀ i, Post (body i s) (fun _ s' => s' = s) T U) : ∀ (k : Nat) (first : Int),
    Post (collect body first k s) (fun _ s' => s' = s) T U := by
  intro k
  induction k with
  | zero => intro first; exact rfl
  | succ k ih =>
    intro first
    refine Post.bind (h first) ?_
    rintro a s' rfl
    refine Post.bind (ih (first + 1)) ?_
    rintro as s' rfl
    exact rfl

theorem collect_ok {α : Type} {body : Int → M F α} {s : St F} : ∀ (cs : List α) (first : Int),
    (∀ (i : Nat) (h : i < cs.length), body (first + i) s = .ok cs[i] s) →
    collect body first cs.length s = .ok cs s := by
  intro cs
  induction cs with
  | nil => intro first _; rfl
  | cons c cs ih =>
    intro first h
    have h0 := h 0 (by simp)
    simp only [Int.natCast_zero, Int.add_zero, List.getElem_cons_zero] at h0
    show (body first >>= _) s = _
    rw [bind_of_ok h0, bind_of_ok (ih (first + 1) fun i hi => by
      have := h (i + 1) (by simpa using hi)
      simp only [List.getElem_cons_succ] at this
      rw [← this]; congr 1; push_cast; omega)]
    rfl

theorem collect_inv {α : Type} {body : Int → M F α} {s : St F} (hk : ∀ i a s', body i s = .ok a s' → s' = s) :
    ∀ (k : Nat) (first : Int) (cs : List α) (s' : St F), collect body first k s = .ok cs s' →
      s' = s ∧ cs.length = k ∧ ∀ (i : Nat) (h : i < cs.length), body (first + i) s = .ok cs[i] s := by
  intro k
  induction k with
  | zero =>
    intro first cs s' h
    cases h
    exact ⟨rfl, rfl, fun i h => by simp at h⟩
  | succ k ih =>
    intro first cs s' h
    obtain ⟨a, s1, h1, h2⟩ := bind_inv h
    obtain rfl := hk _ _ _ h1
    obtain ⟨as, s2, h3, h4⟩ := bind_inv h2
    obtain ⟨rfl, hl, hi⟩ := ih _ _ _ h3
    cases h4
    refine ⟨rfl, by simp [hl], ?_⟩
    rintro (_ | i) h
    · simpa using h1
    · have := hi i (by simpa using h)
      simp only [List.getElem_cons_succ]
      rw [← this]; congr 1; push_cast; omega

theorem checkIsTable_top (s : St F) (v : Val F) (rest : List (Val F)) :
    (∃ a, v = .table a ∧ checkIsTable (-1) (s.on (v :: rest)) = .ok () (s.on (v :: rest))) ∨
    ((∀ a, v ≠ .table a) ∧ checkIsTable (-1) (s.on (v :: rest)) = .throw (s.on (v :: rest))) := by
  unfold checkIsTable
  rw [bind_of_ok (peek_top s v rest)]
  cases v with
  | table a => exact .inl ⟨a, rfl, rfl⟩
  | _ => exact .inr ⟨fun a h => by simp at h, rfl⟩

/-- what a conversion does to the Lua state: on return exactly its argument is gone; when it
throws, its argument and at most `depth t` values above it stay -/
theorem get_post (L : Lua F) (t : Ty) : ∀ (s : St F) (v : Val F) (rest : List (Val F)),
    Post (get L t (-1) (s.on (v :: rest))) (fun _ s' => s' = s.on rest)
      (fun s' => ∃ l, l.length ≤ depth t ∧ s' = s.on (l ++ v :: rest)) 
      (NoMat t → s.cap < rest.length + 1 + depth t) := by
  induction t with
  | int t =>
    intro s v rest
    rw [get, bind_of_ok (peek_top s v rest)]
    cases toNum L v with
    | none => exact ⟨[], by simp, rfl⟩
    | some n => dsimp only; rw [bind_of_ok (remove_top s v rest)]; exact rfl
  | float =>
    intro s v rest
    rw [get, bind_of_ok (peek_top s v rest)]
    cases toNum L v with
    | none => exact ⟨[], by simp, rfl⟩
    | some n => dsimp only; rw [bind_of_ok (remove_top s v rest)]; exact rfl
  | bool =>
    intro s v rest
    rw [get, bind_of_ok (peek_top s v rest)]
    cases v with
    | bool b => dsimp only; rw [bind_of_ok (remove_top s _ rest)]; exact rfl
    | _ => exact ⟨[], by simp, rfl⟩
  | str =>
    intro s v rest
    rw [get, bind_of_ok (peek_top s v rest)]
    cases toStr L v with
    | none => exact ⟨[], by simp, rfl⟩
    | some n => dsimp only; rw [bind_of_ok (remove_top s v rest)]; exact rfl
  | vec t ih =>
    intro s v rest
    rw [get]
    obtain ⟨a, rfl, h⟩ | ⟨-, h⟩ := checkIsTable_top s v rest
    · rw [bind_of_ok h, bind_of_ok (rawlenTop_eq s _ _)]
      refine Post.bind (collect_post (fun i => ?_) _ _) ?_
      · by_cases hf : rest.length + 1 < s.cap
        rotate_left
        · rw [bind_of_ub (rawgeti_full s a rest i hf)]; intro _; simp only [depth]; omega
        rw [bind_of_ok (rawgeti_eq s a rest i hf)]
        refine (ih s ((s.mem.heap a).geti i) (.table a :: rest)).mono (fun c s' h => h) ?_
          (fun h hn => by have := h hn; simp only [List.length_cons] at this; simp only [depth]; omega)
        rintro s' ⟨l, hl, rfl⟩
        exact ⟨l ++ [(s.mem.heap a).geti i], by simp [depth]; omega, by simp⟩
      · rintro cs s' rfl
        rw [bind_of_ok (remove_top s _ rest)]; exact rfl
    · rw [bind_of_throw h]; exact ⟨[], by simp, rfl⟩
  | arr t N ih =>
    intro s v rest
    rw [get]
    obtain ⟨a, rfl, h⟩ | ⟨-, h⟩ := checkIsTable_top s v rest
    · rw [bind_of_ok h, bind_of_ok (rawlenTop_eq s _ _)]
      try dsimp only
      split
      · exact ⟨[], by simp, rfl⟩
      · refine Post.bind (collect_post (fun i => ?_) _ _) ?_
        · by_cases hf : rest.length + 1 < s.cap
          rotate_left
          · rw [bind_of_ub (rawgeti_full s a rest i hf)]; intro _; simp only [depth]; omega
          rw [bind_of_ok (rawgeti_eq s a rest i hf)]
          refine (ih s ((s.mem.heap a).geti i) (.table a :: rest)).mono (fun c s' h => h) ?_
            (fun h hn => by have := h hn; simp only [List.length_cons] at this; simp only [depth]; omega)
          rintro s' ⟨l, hl, rfl⟩
          exact ⟨l ++ [(s.mem.heap a).geti i], by simp [depth]; omega, by simp⟩
        · rintro cs s' rfl
          rw [bind_of_ok (remove_top s _ rest)]; exact rfl
    · rw [bind_of_throw h]; exact ⟨[], by simp, rfl⟩
  | mat t m N ih =>
    intro s v rest
    rw [get]
    obtain ⟨a, rfl, h⟩ | ⟨-, h⟩ := checkIsTable_top s v rest
    · rw [bind_of_ok h, bind_of_ok (rawlenTop_eq s _ _)]
      try dsimp only
      split
      · exact ⟨[], by simp, rfl⟩
      · refine Post.bind (collect_post (fun i => ?_) _ _) ?_
        · by_cases hf : rest.length + 1 < s.cap
          rotate_left
          · rw [bind_of_ub (rawgeti_full s a rest i hf)]; exact fun h => h.elim
          rw [bind_of_ok (rawgeti_eq s a rest i hf)]
          generalize hw : (s.mem.heap a).geti i = w
          refine Post.bind (Q := fun _ s' => s' = s.on (w :: .table a :: rest)) (collect_post (fun j => ?_) _ _) ?_
          · cases w with
            | table b =>
              by_cases hf' : (Val.table a :: rest).length + 1 < s.cap
              rotate_left
              · rw [bind_of_ub (rawgeti_full s b _ j hf')]; exact fun h => h.elim
              rw [bind_of_ok (rawgeti_eq s b (.table a :: rest) j hf')]
              refine (ih s ((s.mem.heap b).geti j) (.table b :: .table a :: rest)).mono
                (fun c s' h => h) ?_ (fun h => fun h' => h'.elim)
              rintro s' ⟨l, hl, rfl⟩
              exact ⟨l ++ [(s.mem.heap b).geti j, .table b], by simp [depth]; omega, by simp⟩
            | _ => rw [bind_of_ub (by rfl)]; exact fun h => h.elim
          · rintro row s' rfl
            rw [bind_of_ok (remove_top s w _)]; exact rfl
        · rintro cs s' rfl
          rw [bind_of_ok (remove_top s _ rest)]; exact rfl
    · rw [bind_of_throw h]; exact ⟨[], by simp, rfl⟩

/-! ## what a table represents -/

/-- the values a C++ integer type can hold -/
def IntTy.InRange (t : IntTy) (i : Int) : Prop :=
  if t.signed then -(2 ^ (t.bits - 1) : Int) ≤ i ∧ i < 2 ^ (t.bits - 1) else 0 ≤ i ∧ i < 2 ^ t.bits

theorem IntTy.wrap_of_inRange (t : IntTy) (h0 : 0 < t.bits) (i : Int) (h : t.InRange i) : t.wrap i = i := by
  unfold InRange at h
  unfold wrap
  have e : (2 ^ t.bits : Nat) = 2 * 2 ^ (t.bits - 1) := by
    obtain ⟨k, hk⟩ : ∃ k, t.bits = k + 1 := ⟨t.bits - 1, by omega⟩
    rw [hk, Nat.pow_succ, Nat.add_sub_cancel]; omega
  split
  · rw [if_pos ‹_›] at h
    have e2 : ((2 ^ (t.bits - 1) : Nat) : Int) = 2 ^ (t.bits - 1) := by push_cast; rfl
    rw [← e2] at h
    refine Int.bmod_eq_of_le ?_ ?_ <;> rw [e] <;> generalize 2 ^ (t.bits - 1) = p at * <;> omega
  · rw [if_neg ‹_›] at h
    exact Int.emod_eq_of_lt h.1 h.2

/-- `i` is the integer a Lua value holds -/
def IsInt (L : Lua F) (v : Val F) (i : Int) : Prop :=
  toNum L v = some (.inl i) ∨ ∃ x, toNum L v = some (.inr x) ∧ L.floatToInt x = some i

/-- the C++ value of type `t` that a Lua value stands for -/
def Repr (L : Lua F) (m : Mem F) : Ty → Val F → CVal F → Prop
  | .int t, v, c => ∃ i, IsInt L v i ∧ t.InRange i ∧ c = .int i
  | .float, v, c => ∃ n, toNum L v = some n ∧ c = .num (asFloat L n)
  | .bool, v, c => ∃ b, v = .bool b ∧ c = .bool b
  | .str, v, c => ∃ b, toStr L v = some b ∧ 0 ∉ b ∧ c = .str b
  | .vec t, v, c => ∃ a cs, v = .table a ∧ c = .list cs ∧ (m.heap a).len = cs.length ∧
      ∀ (i : Nat) (h : i < cs.length), Repr L m t ((m.heap a).geti (i + 1)) cs[i]
  | .arr t N, v, c => ∃ a cs, v = .table a ∧ c = .list cs ∧ cs.length = N ∧ (m.heap a).len = cs.length ∧
      ∀ (i : Nat) (h : i < cs.length), Repr L m t ((m.heap a).geti (i + 1)) cs[i]
  | .mat t M N, v, c => ∃ (a : Nat) (rows : List (List (CVal F))), v = .table a ∧ c = .list (rows.map .list) ∧ rows.length = M ∧
      (m.heap a).len = M ∧ ∀ (i : Nat) (h : i < rows.length), rows[i].length = N ∧
        ∃ b, (m.heap a).geti (i + 1) = .table b ∧ (m.heap b).len = N ∧
          ∀ (j : Nat) (h' : j < rows[i].length), Repr L m t ((m.heap b).geti (j + 1)) rows[i][j]

/-- positive widths -/
def Widths : Ty → Prop
  | .int t => 0 < t.bits
  | .vec t | .arr t _ | .mat t _ _ => Widths t
  | _ => True

theorem cstr_of_noZero (b : Bytes) (h : (0 : UInt8) ∉ b) : cstr b = b := by
  induction b with
  | nil => rfl
  | cons x b ih =>
    simp only [List.mem_cons, not_or] at h
    have := ih h.2
    unfold cstr at this ⊢
    rw [List.takeWhile_cons_of_pos (by simpa using fun e : x = 0 => h.1 e.symm), this]

theorem toInteger_of_isInt (L : Lua F) (v : Val F) (i : Int) (h : IsInt L v i) : toInteger L v = i := by
  unfold toInteger
  rcases h with h | ⟨x, h, h'⟩
  · rw [h]
  · rw [h]; simp [h']

theorem isInt_toNum (L : Lua F) (v : Val F) (i : Int) (h : IsInt L v i) : ∃ n, toNum L v = some n := by
  rcases h with h | ⟨x, h, _⟩ <;> exact ⟨_, h⟩

theorem get_repr (L : Lua F) (t : Ty) : ∀ (s : St F) (v : Val F) (rest : List (Val F)) (c : CVal F), Widths t →
    rest.length + 1 + depth t ≤ s.cap → Repr L s.mem t v c →
    get L t (-1) (s.on (v :: rest)) = .ok c (s.on rest) := by
  induction t with
  | int t =>
    rintro s v rest c hw hc ⟨i, hi, hr, rfl⟩
    obtain ⟨n, hn⟩ := isInt_toNum L v i hi
    rw [get, bind_of_ok (peek_top s v rest)]
    try dsimp only
    rw [hn]
    try dsimp only
    rw [bind_of_ok (remove_top s v rest), toInteger_of_isInt L v i hi, IntTy.wrap_of_inRange t hw i hr]
    rfl
  | float =>
    rintro s v rest c hw hc ⟨n, hn, rfl⟩
    rw [get, bind_of_ok (peek_top s v rest)]
    try dsimp only
    rw [hn]
    try dsimp only
    rw [bind_of_ok (remove_top s v rest)]; rfl
  | bool =>
    rintro s v rest c hw hc ⟨b, rfl, rfl⟩
    rw [get, bind_of_ok (peek_top s _ rest)]
    try dsimp only
    rw [bind_of_ok (remove_top s _ rest)]; rfl
  | str =>
    rintro s v rest c hw hc ⟨b, hb, h0, rfl⟩
    rw [get, bind_of_ok (peek_top s v rest)]
    try dsimp only
    rw [hb]
    try dsimp only
    rw [bind_of_ok (remove_top s v rest), cstr_of_noZero b h0]; rfl
  | vec t ih =>
    rintro s v rest c hw hc ⟨a, cs, rfl, rfl, hl, hi⟩
    simp only [depth] at hc
    rw [get]
    obtain ⟨a', e, h⟩ | ⟨h, -⟩ := checkIsTable_top s (.table a) rest
    · rw [bind_of_ok h, bind_of_ok (rawlenTop_eq s _ _)]
      simp only [rawlen, hl]
      rw [bind_of_ok (collect_ok cs 1 fun i h => ?_), bind_of_ok (remove_top s _ rest)]
      · rfl
      · rw [bind_of_ok (rawgeti_eq s a rest _ (by omega))]
        rw [Int.add_comm]
        exact ih s _ _ _ hw (by simp; omega) (hi i h)
    · exact absurd rfl (h a)
  | arr t N ih =>
    rintro s v rest c hw hc ⟨a, cs, rfl, rfl, hN, hl, hi⟩
    simp only [depth] at hc
    rw [get]
    obtain ⟨a', e, h⟩ | ⟨h, -⟩ := checkIsTable_top s (.table a) rest
    · rw [bind_of_ok h, bind_of_ok (rawlenTop_eq s _ _)]
      simp only [rawlen, hl]
      rw [if_neg (by simp [hN]), hN, Nat.min_self, ← hN,
        bind_of_ok (collect_ok cs 1 fun i h => ?_), bind_of_ok (remove_top s _ rest)]
      · rfl
      · rw [bind_of_ok (rawgeti_eq s a rest _ (by omega))]
        rw [Int.add_comm]
        exact ih s _ _ _ hw (by simp; omega) (hi i h)
    · exact absurd rfl (h a)
  | mat t m N ih =>
    rintro s v rest c hw hc ⟨a, rows, rfl, rfl, hm, hl, hi⟩
    simp only [depth] at hc
    rw [get]
    obtain ⟨a', e, h⟩ | ⟨h, -⟩ := checkIsTable_top s (.table a) rest
    · rw [bind_of_ok h, bind_of_ok (rawlenTop_eq s _ _)]
      simp only [rawlen, hl]
      have hm' : m = (rows.map CVal.list).length := by simp [hm]
      rw [if_neg (by simp), hm',
        bind_of_ok (collect_ok (rows.map CVal.list) 1 fun i h => ?_), bind_of_ok (remove_top s _ rest)]
      · rfl
      · simp only [List.length_map] at h
        obtain ⟨hN, b, hb, hbl, hj⟩ := hi i h
        rw [bind_of_ok (rawgeti_eq s a rest _ (by omega)), Int.add_comm, hb]
        rw [← hN, bind_of_ok (collect_ok rows[i] 1 fun j h' => ?_), bind_of_ok (remove_top s _ _)]
        · simp
        · rw [bind_of_ok (rawgeti_eq s b _ _ (by simp; omega)), Int.add_comm]
          exact ih s _ _ _ hw (by simp; omega) (hj j h')
    · exact absurd rfl (h a)

/-- types whose conversion is exact: no integers, strings or matrices inside -/
def Strict : Ty → Prop
  | .float | .bool => True
  | .vec t | .arr t _ => Strict t
  | _ => False

theorem get_strict (L : Lua F) (t : Ty) (ht : Strict t) : ∀ (s : St F) (v : Val F) (rest : List (Val F)) (c : CVal F)
    (s' : St F), rest.length + 1 + depth t ≤ s.cap → get L t (-1) (s.on (v :: rest)) = .ok c s' →
    Repr L s.mem t v c := by
  induction t with
  | int t => exact ht.elim
  | str => exact ht.elim
  | mat t m n _ => exact ht.elim
  | float =>
    intro s v rest c s' hc h
    rw [get, bind_of_ok (peek_top s v rest)] at h
    cases hn : toNum L v with
    | none => (try dsimp only at h); rw [hn] at h; cases h
    | some n =>
      (try dsimp only at h); rw [hn] at h
      try dsimp only at h
      rw [bind_of_ok (remove_top s v rest)] at h
      cases h
      exact ⟨n, hn, rfl⟩
  | bool =>
    intro s v rest c s' hc h
    rw [get, bind_of_ok (peek_top s v rest)] at h
    cases v with
    | bool b =>
      try dsimp only at h
      rw [bind_of_ok (remove_top s _ rest)] at h
      cases h
      exact ⟨b, rfl, rfl⟩
    | _ => cases h
  | vec t ih =>
    intro s v rest c s' hc h
    simp only [depth] at hc
    rw [get] at h
    obtain ⟨a, rfl, ht'⟩ | ⟨-, ht'⟩ := checkIsTable_top s v rest
    · rw [bind_of_ok ht', bind_of_ok (rawlenTop_eq s _ _)] at h
      obtain ⟨cs, s1, h1, h2⟩ := bind_inv h
      obtain ⟨rfl, hl, hi⟩ := collect_inv (fun i a' s'' hb => by
        rw [bind_of_ok (rawgeti_eq s a rest i (by omega))] at hb
        have := get_post L t s ((s.mem.heap a).geti i) (.table a :: rest)
        rw [hb] at this
        exact this) _ _ _ _ h1
      rw [bind_of_ok (remove_top s _ rest)] at h2
      cases h2
      refine ⟨a, cs, rfl, rfl, hl.symm, fun i hlt => ?_⟩
      have := hi i hlt
      rw [bind_of_ok (rawgeti_eq s a rest _ (by omega)), Int.add_comm] at this
      exact ih ht s _ _ _ _ (by simp; omega) this
    · rw [bind_of_throw ht'] at h; cases h
  | arr t N ih =>
    intro s v rest c s' hc h
    simp only [depth] at hc
    rw [get] at h
    obtain ⟨a, rfl, ht'⟩ | ⟨-, ht'⟩ := checkIsTable_top s v rest
    · rw [bind_of_ok ht', bind_of_ok (rawlenTop_eq s _ _)] at h
      try dsimp only at h
      split at h
      · cases h
      · rename_i hN
        simp only [ne_eq, Decidable.not_not] at hN
        obtain ⟨cs, s1, h1, h2⟩ := bind_inv h
        obtain ⟨rfl, hl, hi⟩ := collect_inv (fun i a' s'' hb => by
          rw [bind_of_ok (rawgeti_eq s a rest i (by omega))] at hb
          have := get_post L t s ((s.mem.heap a).geti i) (.table a :: rest)
          rw [hb] at this
          exact this) _ _ _ _ h1
        rw [bind_of_ok (remove_top s _ rest)] at h2
        cases h2
        simp only [hN, Nat.min_self] at hl
        refine ⟨a, cs, rfl, rfl, hl, by rw [hl]; exact hN, fun i hlt => ?_⟩
        have := hi i hlt
        rw [bind_of_ok (rawgeti_eq s a rest _ (by omega)), Int.add_comm] at this
        exact ih ht s _ _ _ _ (by simp; omega) this
    · rw [bind_of_throw ht'] at h; cases h

end Verif.LuaStack
