import Verif.Deck.Session

namespace Verif.Deck

open Verif.LuaStack
open Verif.InputEngine (LuaSource)

variable {F : Type}

theorem follow_append (m : Mem F) : ∀ (p q : List Bytes) (v : Val F), follow m v (p ++ q) = follow m (follow m v p) q := by
  intro p
  induction p with
  | nil => intro q v; rfl
  | cons k p ih =>
    intro q v
    cases v with
    | table a => exact ih q _
    | _ => cases q <;> rfl

theorem valueAt_append (m : Mem F) (p q : List Bytes) (hp : p ≠ []) : valueAt m (p ++ q) = follow m (valueAt m p) q := by
  cases p with
  | nil => exact absurd rfl hp
  | cons g ks => exact follow_append m ks q _

theorem valueAt_snoc_table (m : Mem F) (p : List Bytes) (k : Bytes) (a : Nat) (h : valueAt m p = .table a) :
    valueAt m (p ++ [k]) = (m.heap a).gets k := by
  have hp : p ≠ [] := by rintro rfl; cases h
  rw [valueAt_append m p [k] hp, h]; rfl

/-- the state between calls: nothing has changed in the file's values, and there are free slots -/
def Idle (m : Mem F) (s : St F) : Prop := s.mem = m ∧ (20 ≤ s.cap ∧ s.cap ≤ 21) ∧ s.stack.length ≤ 19

theorem whole_last (m : Mem F) (v : Val F) : (whole m v).refs.getLast? = some v := rfl
theorem whole_empty (m : Mem F) (v : Val F) : (whole m v).empty = !present v := by cases v <;> rfl

theorem checkStack_cap (L : Lua F) (n : Nat) {s s' : St F} (h : checkStack L n s = .ok () s') :
    s'.cap = max s.cap (s.stack.length + n) := by
  unfold checkStack at h
  obtain ⟨t, a1, h1, h2⟩ := bind_inv h
  unfold checkstack at h1
  split at h1
  · cases h1; cases h2; rfl
  · cases h1; cases h2

theorem pushLast_cap (L : Lua F) (r : Result F) {s s' : St F} (h : pushLast L r s = .ok () s') :
    s'.cap = max s.cap (s.stack.length + 1) := by
  unfold pushLast at h
  obtain ⟨u, s1, h1, h2⟩ := bind_inv h
  rw [← checkStack_cap L 1 h1]
  cases hv : r.refs.getLast? with
  | none => rw [hv] at h2; cases h2
  | some v =>
    rw [hv] at h2
    unfold push at h2
    dsimp only at h2
    split at h2 <;> cases h2
    rfl

theorem field_whole (L : Lua F) (m : Mem F) (a : Nat) (k : Bytes) {s : St F} (hm : s.mem = m)
    (hs : s.stack.length + 2 ≤ L.maxStack) :
    ∃ s', field L (whole m (.table a)) k s = .ok (whole m ((m.heap a).gets k)) s' ∧ s'.stack = [] ∧ s'.mem = m ∧
      s.cap ≤ s'.cap ∧ s'.cap ≤ max s.cap (s.stack.length + 2) := by
  obtain ⟨s1, e1, h1, m1, c1, -⟩ := pushLast_ok L (whole m (.table a)) (.table a) rfl (s := s) rfl (by omega)
  obtain ⟨s2, e2, h2, m2, c2, c2'⟩ := checkStack_ok L 1 h1 (by simp only [List.length_cons]; omega)
  obtain ⟨s3, e3, h3, m3, c3⟩ := push_ok h2 (.str k) (by omega)
  have ec : checkTable s1 = .ok () s1 := by
    obtain ⟨a, ha, e⟩ | ⟨h, -⟩ := checkTable_eq h1
    · exact e
    · exact absurd rfl (h a)
  have em : s3.mem = m := by rw [m3, m2, m1, hm]
  refine ⟨(s3.on ([.table a] ++ s.stack)).on [], ?_, rfl, em, by simp only [St.on_cap]; omega, ?_⟩
  rotate_left
  · have := pushLast_cap L _ e1
    have := checkStack_cap L _ e2
    rw [h1] at this
    simp only [St.on_cap, List.length_cons] at *
    omega
  unfold field
  rw [bind_of_ok e1, bind_of_ok ec, bind_of_ok e2, bind_of_ok e3, bind_of_ok (rawgetKey_eq k h3),
    bind_of_ok (rawlenTop_eq s3 _ _), bind_of_ok (makeRef_eq rfl), bind_of_ok (clear_eq _), em]
  rfl

theorem field_not_table (L : Lua F) (m : Mem F) (v : Val F) (hv : ∀ a, v ≠ .table a) (k : Bytes) {s : St F}
    (hs : s.stack.length + 1 ≤ L.maxStack) :
    ∃ s', field L (whole m v) k s = .throw s' ∧ s'.stack = v :: s.stack ∧ s'.mem = s.mem ∧
      s'.cap = max s.cap (s.stack.length + 1) := by
  refine ⟨{ s with stack := v :: s.stack, cap := max s.cap (s.stack.length + 1) }, ?_, rfl, rfl, rfl⟩
  have e0 : checkStack L 1 s = .ok () { s with cap := max s.cap (s.stack.length + 1) } := by
    unfold checkStack
    rw [bind_of_ok (a := true) (s' := { s with cap := max s.cap (s.stack.length + 1) }) (by simp [checkstack, hs])]
    rfl
  have e1 : pushLast L (whole m v) s = .ok () { s with stack := v :: s.stack, cap := max s.cap (s.stack.length + 1) } := by
    unfold pushLast
    rw [bind_of_ok e0, whole_last]
    simp only [push]
    rw [if_pos (by omega)]
  unfold field
  rw [bind_of_ok e1]
  obtain ⟨a, ha, -⟩ | ⟨-, e⟩ := checkTable_eq
    (s := { s with stack := v :: s.stack, cap := max s.cap (s.stack.length + 1) }) (v := v) (l := s.stack) rfl
  · exact absurd ha (hv a)
  · exact bind_of_throw e

theorem global_whole (k : Bytes) {s : St F} (hs : s.stack.length < s.cap) :
    global k s = .ok (whole s.mem (s.mem.globals (cstr k))) s := by
  unfold global
  rw [bind_of_ok (show getGlobal (cstr k) s = .ok (s.mem.globals (cstr k)) s from rfl)]
  have e := push_eq s (s.mem.globals (cstr k)) s.stack hs
  rw [St.on_self] at e
  rw [bind_of_ok e, bind_of_ok (rawlenTop_eq s _ _), bind_of_ok (makeRef_eq rfl)]
  rfl

theorem global_full (k : Bytes) {s : St F} (hs : ¬ s.stack.length < s.cap) : global k s = .ub := by
  unfold global
  rw [bind_of_ok (show getGlobal (cstr k) s = .ok (s.mem.globals (cstr k)) s from rfl)]
  exact bind_of_ub (by simp [push, hs])

/-- a conversion is `read`, and leaves at most what it had pushed -/
theorem convert_read (L : Lua F) (m : Mem F) (v : Val F) (t : Ty) {s : St F} (hm : s.mem = m)
    (hs : s.stack.length + 1 ≤ L.maxStack) (hc : s.stack.length + 1 + depth t ≤ s.cap) :
    ∃ s', s'.stack = s.stack ∧ s'.mem = m ∧ (s.cap ≤ s'.cap ∧ s'.cap ≤ max s.cap (s.stack.length + 1)) ∧ Does (convert L (whole m v) t s) (read L m t v) s'
      (fun s'' => s''.mem = m ∧ (s.cap ≤ s''.cap ∧ s''.cap ≤ max s.cap (s.stack.length + 1)) ∧ s''.stack.length ≤ s.stack.length + 1 + depth t) := by
  obtain ⟨s1, e1, h1, m1, c1, -⟩ := pushLast_ok L (whole m v) v rfl (s := s) rfl hs
  have c1' := pushLast_cap L _ e1
  refine ⟨s1.on s.stack, rfl, m1.trans hm, ⟨c1, by simp only [St.on_cap]; omega⟩, ?_⟩
  unfold convert
  rw [if_neg (by simp [whole])]
  refine Does.pre e1 ?_
  have := get_read L t s1 v s.stack (by omega)
  rw [← h1, St.on_self, m1, hm] at this
  refine this.mono ?_
  rintro s'' ⟨l, hl, rfl⟩
  refine ⟨m1.trans hm, ⟨c1, by simp only [St.on_cap]; omega⟩, ?_⟩
  rw [h1]
  simp only [St.on_stack, List.length_append, List.length_cons]; omega

/-! ## the source and the book -/

/-- the source holds what the book describes -/
def Agrees (m : Mem F) (src : Source F) (b : Book) : Prop :=
  src.tableMap = b.table ∧ src.luaKey = b.nick ∧ ∀ n, src.tables n = (b.path n).map fun p => whole m (valueAt m p)

theorem agrees_locate {m : Mem F} {src : Source F} {b : Book} (h : Agrees m src b) (k tbl lk : Bytes) :
    Agrees m (src.registerValue k tbl (given lk)).2 (b.locate k tbl lk) ∧
      (src.registerValue k tbl (given lk)).1 = (b.table k).isSome := by
  obtain ⟨h1, h2, h3⟩ := h
  refine ⟨⟨?_, ?_, h3⟩, by simp [LuaSource.registerValue, h1]⟩
  · simp [LuaSource.registerValue, Book.locate, h1]
    congr
    exact Subsingleton.elim _ _
  · by_cases hl : lk = []
    · simp [LuaSource.registerValue, Book.locate, given, hl, h2]
    · simp [LuaSource.registerValue, Book.locate, given, hl, h2]
      congr
      exact Subsingleton.elim _ _

theorem agrees_add {m : Mem F} {src : Source F} {b : Book} (h : Agrees m src b) (n : Bytes) (p : List Bytes) :
    Agrees m (emplace src n (whole m (valueAt m p))) (b.add n p) := by
  obtain ⟨h1, h2, h3⟩ := h
  unfold emplace Book.add
  have hn := h3 n
  cases hb : b.path n with
  | some q =>
    rw [hb] at hn; simp only [Option.map_some] at hn
    rw [hn]
    exact ⟨h1, h2, h3⟩
  | none =>
    rw [hb] at hn; simp only [Option.map_none] at hn
    rw [hn]
    refine ⟨h1, h2, fun n' => ?_⟩
    by_cases e : n' = n
    · subst e; simp
    · simp [e, h3]

theorem find_told (L : Lua F) {m : Mem F} {src : Source F} {b : Book} (h : Agrees m src b) (ht : Tables m b) (k : Bytes)
    {s : St F} (hi : Idle m s) (hL : 21 ≤ L.maxStack) :
    (b.find m k = none ∧ find L src k s = .throw s) ∨
    ∃ v s', b.find m k = some v ∧ find L src k s = .ok (whole m v) s' ∧ s'.stack = [] ∧ s'.mem = m ∧ (20 ≤ s'.cap ∧ s'.cap ≤ 21) := by
  obtain ⟨h1, h2, h3⟩ := h
  obtain ⟨im, ic, is⟩ := hi
  unfold Book.find find
  rw [h1, h2]
  cases hb : b.table k with
  | none => exact .inl ⟨rfl, rfl⟩
  | some n =>
    simp only
    rw [h3 n]
    cases hp : b.path n with
    | none => exact .inl ⟨rfl, rfl⟩
    | some p =>
      obtain ⟨a, ha⟩ := ht n p hp
      simp only [Option.map_some]
      rw [ha]
      right
      obtain ⟨s', e, e1, e2, e3⟩ := field_whole L m a ((b.nick k).getD k) im (by omega)
      exact ⟨_, s', by rw [valueAt_snoc_table m p _ a ha], e, e1, e2, by omega⟩

theorem idle_of {m : Mem F} {s : St F} (h1 : s.stack = []) (h2 : s.mem = m) (h3 : 20 ≤ s.cap ∧ s.cap ≤ 21) : Idle m s :=
  ⟨h2, h3, by rw [h1]; simp⟩

theorem tryAccess_global (m : Mem F) (n : Bytes) {s : St F} (hm : s.mem = m) (hs : s.stack.length < s.cap) :
    tryAccess (global n) s = if present (m.globals (cstr n)) then .ok (whole m (m.globals (cstr n))) s else .throw s := by
  have e := global_whole n hs
  rw [hm] at e
  unfold tryAccess
  rw [bind_of_ok e, whole_empty]
  cases present (m.globals (cstr n)) with
  | true => rw [if_neg (by simp), if_pos rfl]; exact e
  | false =>
    rw [if_pos (by simp), bind_of_ok e, if_neg (by simp)]; rfl

theorem tryAccess_field (L : Lua F) (m : Mem F) (a : Nat) (n : Bytes) {s : St F} (hm : s.mem = m)
    (hs : s.stack.length + 2 ≤ L.maxStack) (hL : 2 ≤ L.maxStack) :
    ∃ s', s'.stack = [] ∧ s'.mem = m ∧ (s.cap ≤ s'.cap ∧ s'.cap ≤ max s.cap (s.stack.length + 2)) ∧ tryAccess (field L (whole m (.table a)) n) s =
      if present ((m.heap a).gets n) then .ok (whole m ((m.heap a).gets n)) s' else .throw s' := by
  obtain ⟨s1, e1, h1, m1, c1⟩ := field_whole L m a n hm hs
  obtain ⟨s2, e2, h2, m2, c2⟩ := field_whole L m a n m1 (by rw [h1]; simpa using hL)
  rw [h1, List.length_nil] at c2
  refine ⟨s2, h2, m2, ⟨by omega, by omega⟩, ?_⟩
  unfold tryAccess
  rw [bind_of_ok e1, whole_empty]
  cases present ((m.heap a).gets n) with
  | true => rw [if_neg (by simp), if_pos rfl]; exact e2
  | false => rw [if_pos (by simp), bind_of_ok e2, if_neg (by simp)]; rfl

/-- loading a table finds what the file has at its path -/
theorem loadTable_told (L : Lua F) (hL : 21 ≤ L.maxStack) {m : Mem F} {src : Source F} {b : Book} (g : Agrees m src b)
    (ht : Tables m b) (n parent : Bytes) (hg : b.table n = some parent) {s : St F} (hi : Idle m s) :
    (∃ p, b.below n parent = some p ∧ present (valueAt m p) = true ∧
      ∃ s', loadTable L src n s = .ok (emplace src n (whole m (valueAt m p))) s' ∧ Idle m s') ∨
    ((∀ p, b.below n parent = some p → present (valueAt m p) = false) ∧ ∃ s', loadTable L src n s = .throw s' ∧ Idle m s') := by
  have hidle := hi
  obtain ⟨im, ic, is⟩ := hi
  unfold loadTable Book.below
  rw [g.1, hg]
  dsimp only
  by_cases hb : parent = baseState
  · rw [if_pos hb, if_pos hb]
    have et := tryAccess_global m n im (by omega)
    cases hpr : present (m.globals (cstr n)) with
    | true =>
      rw [hpr, if_pos rfl] at et
      exact .inl ⟨_, rfl, hpr, s, by rw [bind_of_ok et]; rfl, hidle⟩
    | false =>
      rw [hpr, if_neg (by simp)] at et
      refine .inr ⟨?_, s, by rw [bind_of_throw et], hidle⟩
      rintro p ⟨⟩
      exact hpr
  · rw [if_neg hb, if_neg hb, g.2.2 parent]
    cases hp : b.path parent with
    | none => exact .inr ⟨by simp, s, rfl, hidle⟩
    | some p =>
      obtain ⟨a, ha⟩ := ht parent p hp
      simp only [Option.map_some]
      rw [ha]
      obtain ⟨s1, k1, k2, k3, et⟩ := tryAccess_field L m a n im (by omega) (by omega)
      have ev := valueAt_snoc_table m p n a ha
      cases hpr : present ((m.heap a).gets n) with
      | true =>
        rw [hpr, if_pos rfl] at et
        exact .inl ⟨_, rfl, by rw [ev]; exact hpr, s1, by rw [bind_of_ok et, ev]; rfl, idle_of k1 k2 (by omega)⟩
      | false =>
        rw [hpr, if_neg (by simp)] at et
        refine .inr ⟨?_, s1, by rw [bind_of_throw et], idle_of k1 k2 (by omega)⟩
        rintro q ⟨⟩
        rw [ev]; exact hpr

/-- one call answers what the file says -/
theorem ask_told (L : Lua F) (hL : 21 ≤ L.maxStack) {m : Mem F} {src : Source F} {b : Book} (h : Agrees m src b)
    (ht : Tables m b) (q : Query) (hq : ∀ t k, q = .value t k → depth t ≤ 18) {s : St F} (hi : Idle m s) :
    match told L m b q with
    | none => ask L src s q = none
    | some (a, b') => ∃ src' s', ask L src s q = some (a, src', s') ∧ Agrees m src' b' ∧ Idle m s' := by
  have hidle := hi
  obtain ⟨im, ic, is⟩ := hi
  cases q with
  | value t k =>
    have hd := hq t k rfl
    simp only [told, ask, getValue]
    obtain ⟨e, ef⟩ | ⟨v, s1, e, ef, k1, k2, k3⟩ := find_told L h ht k hidle hL
    · rw [e, bind_of_throw ef]
      exact ⟨_, _, rfl, h, hidle⟩
    · rw [e, bind_of_ok ef, whole_empty]
      by_cases hv : v = .nil
      · subst hv
        exact ⟨_, _, rfl, h, idle_of k1 k2 k3⟩
      · have hp : present v = true := by cases v <;> first | rfl | exact absurd rfl hv
        have hsaid : valueSaid L m t (some v) = match read L m t v with
            | .ok c => some (.value (some c))
            | .ub => none
            | _ => some .threw := by
          cases v <;> first | rfl | exact absurd rfl hv
        rw [if_neg (by simp [hp]), hsaid]
        obtain ⟨s2, n1, n2, n3, hdo⟩ := convert_read L m v t k2 (by rw [k1]; simp; omega) (by rw [k1]; simp; omega)
        rw [k1, List.length_nil] at n3 hdo
        cases hr : read L m t v with
        | ok c =>
          rw [hr] at hdo
          rw [bind_of_ok hdo]
          exact ⟨_, _, rfl, h, idle_of (n1.trans k1) n2 (by omega)⟩
        | throws x =>
          rw [hr] at hdo
          obtain ⟨s3, e3, o1, o2, o3⟩ := hdo
          rw [bind_of_throw e3]
          exact ⟨_, _, rfl, h, o1, by omega, by omega⟩
        | ub =>
          rw [hr] at hdo
          rw [bind_of_ub hdo]
          rfl
        | _ => rw [hr] at hdo; exact hdo.elim
  | size k =>
    simp only [told, ask, getSize]
    obtain ⟨e, ef⟩ | ⟨v, s1, e, ef, k1, k2, k3⟩ := find_told L h ht k hidle hL
    · rw [e, bind_of_throw ef]
      exact ⟨_, _, rfl, h, hidle⟩
    · rw [e, bind_of_ok ef]
      exact ⟨_, _, rfl, h, idle_of k1 k2 k3⟩
  | raw k =>
    simp only [told, ask, getRaw]
    obtain ⟨e, ef⟩ | ⟨v, s1, e, ef, k1, k2, k3⟩ := find_told L h ht k hidle hL
    · rw [e, bind_of_throw ef]
      exact ⟨_, _, rfl, h, hidle⟩
    · rw [e, bind_of_ok ef, whole_empty, Bool.not_not]
      exact ⟨_, _, rfl, h, idle_of k1 k2 k3⟩
  | table n =>
    simp only [told, ask, getTable]
    rw [h.2.2 n]
    cases b.path n with
    | none => exact ⟨_, _, rfl, h, hidle⟩
    | some p => exact ⟨_, _, rfl, h, hidle⟩
  | locate k tbl lk =>
    simp only [told, ask]
    obtain ⟨h1, h2⟩ := agrees_locate h k tbl lk
    exact ⟨_, _, by rw [h2], h1, hidle⟩
  | load n parent lk =>
    simp only [told, ask, registerTable]
    obtain ⟨g, g2⟩ := agrees_locate h n parent lk
    rw [g2]
    generalize (src.registerValue n parent (given lk)).2 = src1 at g ⊢
    have hg : (b.locate n parent lk).table n = some parent := by simp [Book.locate]
    have ht1 : Tables m (b.locate n parent lk) := ht
    generalize b.locate n parent lk = b1 at g hg ht1 ⊢
    obtain ⟨p, hp, hpr, s1, e, i1⟩ | ⟨hn, s1, e, i1⟩ := loadTable_told L hL g ht1 n parent hg hidle
    · rw [hp]
      dsimp only
      rw [if_pos hpr, bind_of_ok e]
      exact ⟨_, _, rfl, agrees_add g n p, i1⟩
    · rw [bind_of_throw e]
      cases hp : b1.below n parent with
      | none => exact ⟨_, _, rfl, g, i1⟩
      | some p =>
        dsimp only
        rw [if_neg (by rw [hn p hp]; simp)]
        exact ⟨_, _, rfl, g, i1⟩

/-- a whole program is told what the file says -/
theorem session_told (L : Lua F) (hL : 21 ≤ L.maxStack) {m : Mem F} : ∀ (qs : List Query) {src : Source F} {b : Book}
    {s : St F}, Agrees m src b → Tame L m b qs → Shallow qs → Idle m s →
    match toldAll L m b qs with
    | none => session L src s qs = none
    | some (as, b') => ∃ src' s', session L src s qs = some (as, src', s') ∧ Agrees m src' b' ∧ Idle m s' := by
  intro qs
  induction qs with
  | nil => intro src b s h _ _ hi; exact ⟨src, s, rfl, h, hi⟩
  | cons q qs ih =>
    intro src b s h ht hq hi
    have h1 := ask_told L hL h ht.1 q (fun t k e => hq t k (by simp [e])) hi
    simp only [toldAll, session]
    cases hs : told L m b q with
    | none => rw [hs] at h1; dsimp only at h1; rw [h1]
    | some r =>
      obtain ⟨a, b1⟩ := r
      rw [hs] at h1
      obtain ⟨src1, s1, e1, g1, i1⟩ := h1
      rw [e1]
      dsimp only
      have h2 := ih g1 (ht.2 a b1 hs) (fun t k hm => hq t k (List.mem_cons_of_mem _ hm)) i1
      cases hs2 : toldAll L m b1 qs with
      | none => rw [hs2] at h2; dsimp only at h2; rw [h2]
      | some r =>
        rw [hs2] at h2
        obtain ⟨src2, s2, e2, g2, i2⟩ := h2
        rw [e2]
        exact ⟨_, _, rfl, g2, i2⟩

end Verif.Deck
