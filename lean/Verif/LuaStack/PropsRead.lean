import Verif.LuaStack.PropsValue
import Verif.LuaStack.Read

/-!
# Property C57: exactly which values a conversion accepts, and what it returns

`Gives` says, type by type and without the stack, which C++ value the library makes of a Lua value:
the rules differ from what the value stands for (`Repr`) in three places — integers that do not fit
or are not integers, strings with a zero byte, rows of a matrix that are too long.
-/

namespace Verif.LuaStack

variable {F : Type}

/-- the integer Lua hands over for a number: the number itself, or zero if it is not an integer -/
def Handed (L : Lua F) (v : Val F) (i : Int) : Prop :=
  toNum L v = some (.inl i) ∨
    ∃ x, toNum L v = some (.inr x) ∧ (L.floatToInt x = some i ∨ L.floatToInt x = none ∧ i = 0)

/-- the C++ value of type `t` the conversions of embed_lua.h:87-285 make of a Lua value -/
def Gives (L : Lua F) (m : Mem F) : Ty → Val F → CVal F → Prop
  | .int t, v, c => ∃ i k, Handed L v i ∧ t.InRange k ∧ (∃ q, k = i + q * 2 ^ t.bits) ∧ c = .int k
  | .float, v, c => ∃ n, toNum L v = some n ∧ c = .num (asFloat L n)
  | .bool, v, c => ∃ b, v = .bool b ∧ c = .bool b
  | .str, v, c => ∃ b p, toStr L v = some b ∧ 0 ∉ p ∧ (b = p ∨ ∃ r, b = p ++ 0 :: r) ∧ c = .str p
  | .vec t, v, c => ∃ a cs, v = .table a ∧ c = .list cs ∧ (m.heap a).len = cs.length ∧
      ∀ (i : Nat) (h : i < cs.length), Gives L m t ((m.heap a).geti (i + 1)) cs[i]
  | .arr t N, v, c => ∃ a cs, v = .table a ∧ c = .list cs ∧ cs.length = N ∧ (m.heap a).len = cs.length ∧
      ∀ (i : Nat) (h : i < cs.length), Gives L m t ((m.heap a).geti (i + 1)) cs[i]
  | .mat t M N, v, c => ∃ (a : Nat) (rows : List (List (CVal F))), v = .table a ∧ c = .list (rows.map .list) ∧
      rows.length = M ∧ (m.heap a).len = M ∧ ∀ (i : Nat) (h : i < rows.length), rows[i].length = N ∧
        ∀ (j : Nat) (h' : j < rows[i].length), ∃ b, (m.heap a).geti (i + 1) = .table b ∧
          Gives L m t ((m.heap b).geti (j + 1)) rows[i][j]

/-- every row of every matrix met while converting to `t` is a table; no condition for types
without matrices or for matrices without columns -/
def RowsAreTables (m : Mem F) : Ty → Val F → Prop
  | .vec t, v | .arr t _, v => ∀ a, v = .table a → ∀ i, RowsAreTables m t ((m.heap a).geti i)
  | .mat t _ N, v => ∀ a, v = .table a → ∀ i, (N ≠ 0 → ∃ b, (m.heap a).geti i = .table b) ∧
      ∀ b, (m.heap a).geti i = .table b → ∀ j, RowsAreTables m t ((m.heap b).geti j)
  | _, _ => True

theorem handed_iff (L : Lua F) (v : Val F) (i : Int) :
    Handed L v i ↔ (∃ n, toNum L v = some n) ∧ toInteger L v = i := by
  unfold Handed toInteger
  cases h : toNum L v with
  | none => simp
  | some n =>
    cases n with
    | inl j => simp
    | inr x =>
      cases h' : L.floatToInt x with
      | none => simp [h', eq_comm]
      | some j => simp [h']

theorem IntTy.wrap_iff (t : IntTy) (h0 : 0 < t.bits) (i k : Int) :
    t.wrap i = k ↔ t.InRange k ∧ ∃ q : Int, k = i + q * 2 ^ t.bits := by
  have e : (2 ^ t.bits : Nat) = 2 * 2 ^ (t.bits - 1) := by
    obtain ⟨k, hk⟩ : ∃ k, t.bits = k + 1 := ⟨t.bits - 1, by omega⟩
    rw [hk, Nat.pow_succ, Nat.add_sub_cancel]; omega
  have hp : 0 < 2 ^ (t.bits - 1) := Nat.pow_pos (by decide)
  have e1 : (2 ^ t.bits : Int) = ((2 ^ t.bits : Nat) : Int) := by push_cast; rfl
  have e2 : ((2 ^ (t.bits - 1) : Nat) : Int) = 2 ^ (t.bits - 1) := by push_cast; rfl
  have key : ∀ q : Int, t.wrap (i + q * 2 ^ t.bits) = t.wrap i := by
    intro q
    unfold IntTy.wrap
    rw [e1]
    split
    · rw [Int.mul_comm, Int.add_mul_bmod_self_left]
    · rw [Int.add_mul_emod_self_right]
  constructor
  · rintro rfl
    unfold IntTy.wrap InRange
    rw [e1, ← e2]
    split
    · refine ⟨⟨?_, ?_⟩, ?_⟩
      · have := Int.le_bmod (x := i) (m := 2 ^ t.bits) (by omega)
        rw [e] at this ⊢; omega
      · have := Int.bmod_lt (x := i) (m := 2 ^ t.bits) (by omega)
        rw [e] at this ⊢; omega
      · refine ⟨-(Int.bdiv i (2 ^ t.bits)), ?_⟩
        have := Int.bdiv_add_bmod i (2 ^ t.bits)
        rw [Int.neg_mul, Int.mul_comm]; omega
    · refine ⟨⟨Int.emod_nonneg _ (by omega), Int.emod_lt_of_pos _ (by omega)⟩, -(i / ((2 ^ t.bits : Nat) : Int)), ?_⟩
      have := Int.mul_ediv_add_emod i ((2 ^ t.bits : Nat) : Int)
      rw [Int.neg_mul, Int.mul_comm]; omega
  · rintro ⟨hr, q, rfl⟩
    rw [← key q]
    exact IntTy.wrap_of_inRange t h0 _ hr

theorem cstr_iff (b p : Bytes) : cstr b = p ↔ (0 : UInt8) ∉ p ∧ (b = p ∨ ∃ r, b = p ++ 0 :: r) := by
  induction b generalizing p with
  | nil => cases p <;> simp [cstr]
  | cons x b ih =>
    unfold cstr at ih ⊢
    by_cases hx : x = 0
    · subst hx
      rw [List.takeWhile_cons_of_neg (by simp)]
      cases p with
      | nil => simp
      | cons y p =>
        constructor
        · intro h; cases h
        · rintro ⟨h, h' | ⟨r, h'⟩⟩ <;> (cases h'; simp at h)
    · rw [List.takeWhile_cons_of_pos (by simpa using hx)]
      cases p with
      | nil =>
        constructor
        · intro h; cases h
        · rintro ⟨h, h' | ⟨r, h'⟩⟩ <;> cases h'
          exact absurd rfl hx
      | cons y p =>
        rw [List.cons.injEq, ih p]
        simp only [List.mem_cons, not_or, List.cons.injEq, List.cons_append]
        constructor
        · rintro ⟨rfl, h, h'⟩
          refine ⟨⟨fun e => hx e.symm, h⟩, ?_⟩
          simpa using h'
        · rintro ⟨⟨h1, h2⟩, ⟨rfl, h⟩ | ⟨r, rfl, h⟩⟩
          · exact ⟨rfl, h2, .inl h⟩
          · exact ⟨rfl, h2, .inr ⟨r, h⟩⟩

theorem ofTable_ok {α : Type} (v : Val F) (f : Nat → Outcome α) (c : α) :
    ofTable v f = .ok c ↔ ∃ a, v = .table a ∧ f a = .ok c := by
  cases v <;> simp [ofTable, mismatch]

theorem ofRow_ok {α : Type} (v : Val F) (f : Nat → Outcome α) (c : α) :
    ofRow v f = .ok c ↔ ∃ a, v = .table a ∧ f a = .ok c := by
  cases v <;> simp [ofRow]

theorem bind_ok_iff {α β : Type} (o : Outcome α) (f : α → Outcome β) (c : β) :
    (o >>= f) = .ok c ↔ ∃ a, o = .ok a ∧ f a = .ok c := by
  cases o with
  | ok a => rw [Outcome.bind_ok]; simp
  | _ => constructor
         · intro h; cases h
         · rintro ⟨a, h, -⟩; cases h

theorem read_gives (L : Lua F) (m : Mem F) (t : Ty) : ∀ (v : Val F) (c : CVal F), Widths t →
    (read L m t v = .ok c ↔ Gives L m t v c) := by
  induction t with
  | int t =>
    intro v c hw
    rw [read, Gives]
    have h : (match toNum L v with
        | none => mismatch
        | some _ => .ok (.int (t.wrap (toInteger L v)))) = Outcome.ok c ↔
        (∃ n, toNum L v = some n) ∧ CVal.int (t.wrap (toInteger L v)) = c := by
      cases toNum L v <;> simp [mismatch]
    refine h.trans ?_
    constructor
    · rintro ⟨hn, rfl⟩
      have := (IntTy.wrap_iff t hw (toInteger L v) _).mp rfl
      exact ⟨_, _, (handed_iff L v _).mpr ⟨hn, rfl⟩, this.1, this.2, rfl⟩
    · rintro ⟨i, k, hh, hr, hq, rfl⟩
      obtain ⟨hn, rfl⟩ := (handed_iff L v i).mp hh
      exact ⟨hn, by rw [(IntTy.wrap_iff t hw _ k).mpr ⟨hr, hq⟩]⟩
  | float =>
    intro v c _
    rw [read, Gives]
    cases toNum L v <;> simp [mismatch, eq_comm]
  | bool =>
    intro v c _
    rw [read, Gives]
    cases v <;> simp [ofBool, mismatch, eq_comm]
  | str =>
    intro v c _
    rw [read, Gives]
    cases toStr L v with
    | none => simp [mismatch]
    | some b =>
      simp only [Outcome.ok.injEq, Option.some.injEq]
      constructor
      · rintro rfl
        have := (cstr_iff b _).mp rfl
        exact ⟨b, _, rfl, this.1, this.2, rfl⟩
      · rintro ⟨_, p, rfl, h1, h2, rfl⟩
        rw [(cstr_iff b p).mpr ⟨h1, h2⟩]
  | vec t ih =>
    intro v c hw
    rw [read, Gives, ofTable_ok]
    constructor
    · rintro ⟨a, rfl, h⟩
      obtain ⟨cs, h1, h'⟩ := (bind_ok_iff _ _ _).mp h
      cases h'
      obtain ⟨hl, hi⟩ := (readAll_ok _ _ _ _).mp h1
      refine ⟨a, cs, rfl, rfl, hl.symm, fun i h => (ih _ _ hw).mp ?_⟩
      have := hi i h
      rwa [Int.add_comm] at this
    · rintro ⟨a, cs, rfl, rfl, hl, hi⟩
      refine ⟨a, rfl, (bind_ok_iff _ _ _).mpr ⟨cs, (readAll_ok _ _ _ _).mpr ⟨hl.symm, fun i h => ?_⟩, rfl⟩⟩
      rw [Int.add_comm]
      exact (ih _ _ hw).mpr (hi i h)
  | arr t N ih =>
    intro v c hw
    rw [read, Gives, ofTable_ok]
    constructor
    · rintro ⟨a, rfl, h⟩
      split at h
      · cases h
      · rename_i hN
        obtain ⟨cs, h1, h'⟩ := (bind_ok_iff _ _ _).mp h
        cases h'
        obtain ⟨hl, hi⟩ := (readAll_ok _ _ _ _).mp h1
        refine ⟨a, cs, rfl, rfl, hl, by omega, fun i h => (ih _ _ hw).mp ?_⟩
        have := hi i h
        rwa [Int.add_comm] at this
    · rintro ⟨a, cs, rfl, rfl, hN, hl, hi⟩
      refine ⟨a, rfl, ?_⟩
      rw [if_neg (by omega)]
      refine (bind_ok_iff _ _ _).mpr ⟨cs, (readAll_ok _ _ _ _).mpr ⟨hN, fun i h => ?_⟩, rfl⟩
      rw [Int.add_comm]
      exact (ih _ _ hw).mpr (hi i h)
  | mat t M N ih =>
    intro v c hw
    rw [read, Gives, ofTable_ok]
    constructor
    · rintro ⟨a, rfl, h⟩
      split at h
      · cases h
      · rename_i hM
        obtain ⟨cs, h1, h'⟩ := (bind_ok_iff _ _ _).mp h
        cases h'
        obtain ⟨hl, hi⟩ := (readAll_ok _ _ _ _).mp h1
        have hrow : ∀ (i : Nat) (h : i < cs.length), ∃ row : List (CVal F), cs[i] = .list row ∧ row.length = N ∧
            ∀ (j : Nat) (h' : j < row.length), ∃ b, (m.heap a).geti (i + 1) = .table b ∧
              Gives L m t ((m.heap b).geti (j + 1)) row[j] := by
          intro i h
          obtain ⟨row, h1, h2⟩ := (bind_ok_iff _ _ _).mp (hi i h)
          obtain ⟨hrl, hrj⟩ := (readAll_ok _ _ _ _).mp h1
          refine ⟨row, (Outcome.ok.inj h2).symm, hrl, fun j h' => ?_⟩
          obtain ⟨b, hb, hj⟩ := (ofRow_ok _ _ _).mp (hrj j h')
          rw [Int.add_comm] at hb
          refine ⟨b, hb, (ih _ _ hw).mp ?_⟩
          rwa [Int.add_comm] at hj
        let un : CVal F → List (CVal F) := fun c => match c with | .list r => r | _ => []
        have hun : cs = (cs.map un).map .list := by
          apply List.ext_getElem (by simp)
          intro i h1 h2
          obtain ⟨row, h, -⟩ := hrow i h1
          simp [h, un]
        refine ⟨a, cs.map un, rfl, by rw [← hun], by simpa using hl, by omega, fun i h => ?_⟩
        obtain ⟨row, h1, h2, h3⟩ := hrow i (by simpa using h)
        have : (cs.map un)[i] = row := by simp [h1, un]
        rw [this]
        exact ⟨h2, h3⟩
    · rintro ⟨a, rows, rfl, rfl, hM, hl, hi⟩
      refine ⟨a, rfl, ?_⟩
      rw [if_neg (by omega)]
      refine (bind_ok_iff _ _ _).mpr ⟨rows.map .list, (readAll_ok _ _ _ _).mpr ⟨by simpa using hM, fun i h => ?_⟩, rfl⟩
      simp only [List.length_map] at h
      obtain ⟨hN, hj⟩ := hi i h
      refine (bind_ok_iff _ _ _).mpr ⟨rows[i], (readAll_ok _ _ _ _).mpr ⟨hN, fun j h' => ?_⟩, by simp⟩
      obtain ⟨b, hb, hg⟩ := hj j h'
      refine (ofRow_ok _ _ _).mpr ⟨b, by rw [Int.add_comm]; exact hb, ?_⟩
      rw [Int.add_comm]
      exact (ih _ _ hw).mpr hg

theorem readAll_throws {α : Type} (f : Int → Outcome α) (h : ∀ i, (∃ c, f i = .ok c) ∨ f i = mismatch) :
    ∀ (k : Nat) (first : Int), (∃ cs, readAll f first k = .ok cs) ∨ readAll f first k = mismatch := by
  intro k
  induction k with
  | zero => intro _; exact .inl ⟨[], rfl⟩
  | succ k ih =>
    intro first
    rw [readAll]
    rcases h first with ⟨c, e⟩ | e
    · rw [e, Outcome.bind_ok]
      rcases ih (first + 1) with ⟨cs, e'⟩ | e'
      · rw [e', Outcome.bind_ok]; exact .inl ⟨_, rfl⟩
      · rw [e']; exact .inr rfl
    · rw [e]; exact .inr rfl

theorem bind_throws {α β : Type} {o : Outcome α} {f : α → β} (h : (∃ c, o = .ok c) ∨ o = mismatch) :
    (∃ c, (o >>= fun a => Outcome.ok (f a)) = .ok c) ∨ (o >>= fun a => Outcome.ok (f a)) = mismatch := by
  rcases h with ⟨c, rfl⟩ | rfl
  · exact .inl ⟨_, rfl⟩
  · exact .inr rfl

theorem read_throws (L : Lua F) (m : Mem F) (t : Ty) : ∀ (v : Val F), RowsAreTables m t v →
    (∃ c, read L m t v = .ok c) ∨ read L m t v = mismatch := by
  induction t with
  | int t => intro v _; rw [read]; cases toNum L v <;> simp
  | float => intro v _; rw [read]; cases toNum L v <;> simp
  | bool => intro v _; rw [read]; cases v <;> simp [ofBool]
  | str => intro v _; rw [read]; cases toStr L v <;> simp
  | vec t ih =>
    intro v hr
    rw [read]
    cases v with
    | table a => exact bind_throws (readAll_throws _ (fun i => ih _ (hr a rfl i)) _ _)
    | _ => exact .inr rfl
  | arr t N ih =>
    intro v hr
    rw [read]
    cases v with
    | table a =>
      simp only [ofTable]
      split
      · exact .inr rfl
      · exact bind_throws (readAll_throws _ (fun i => ih _ (hr a rfl i)) _ _)
    | _ => exact .inr rfl
  | mat t M N ih =>
    intro v hr
    rw [read]
    cases v with
    | table a =>
      simp only [ofTable]
      split
      · exact .inr rfl
      · refine bind_throws (readAll_throws _ (fun i => bind_throws ?_) _ _)
        obtain ⟨h1, h2⟩ := hr a rfl i
        cases N with
        | zero => exact .inl ⟨[], rfl⟩
        | succ N =>
          obtain ⟨b, hb⟩ := h1 (by omega)
          rw [hb]
          exact readAll_throws _ (fun j => ih _ (h2 b hb j)) _ _
    | _ => exact .inr rfl

/-- **C57** exactly: whatever the type asked for, the conversion of the value on top of the stack
returns `c` if and only if the rules give `c`, and then it has taken that value off the stack and
changed nothing else.  The rules: an integer of the asked type congruent to the number modulo two to the
number of bits (zero for a fraction), a number as a floating number, only booleans as booleans, a string up to its first
zero byte, a vector element by element up to the length Lua reports, an array likewise if the
length is right, and a matrix if the number of rows is right, of which the first columns are taken. -/
theorem C57_exact (L : Lua F) (t : Ty) (s : St F) (v : Val F) (rest : List (Val F)) (hw : Widths t)
    (hs : s.stack = v :: rest) (hc : rest.length + 1 + depth t ≤ s.cap) (c : CVal F) (s' : St F) :
    get L t (-1) s = .ok c s' ↔ Gives L s.mem t v c ∧ s' = { s with stack := rest } := by
  have h := get_read L t s v rest hc
  have e : s.on (v :: rest) = s := by cases s; simp_all [St.on]
  rw [e] at h
  rw [← read_gives L s.mem t v c hw]
  cases hr : read L s.mem t v with
  | ok c' =>
    rw [hr] at h
    rw [show get L t (-1) s = .ok c' (s.on rest) from h]
    constructor
    · intro h'; cases h'; exact ⟨rfl, rfl⟩
    · rintro ⟨h1, rfl⟩; cases h1; rfl
  | throws k =>
    rw [hr] at h
    obtain ⟨s1, h1, -⟩ := h
    rw [h1]; simp
  | ub =>
    rw [hr] at h
    rw [show get L t (-1) s = .ub from h]; simp
  | _ => rw [hr] at h; exact h.elim

/-- **C57** the other half: when every row of every matrix met is a table — always, if no matrix is
asked for — a conversion the rules do not allow throws, and never does anything else.  (What the
rows of a matrix that are not tables do is `C57_matrix_row_fails`.) -/
theorem C57_refused (L : Lua F) (t : Ty) (s : St F) (v : Val F) (rest : List (Val F)) (hw : Widths t)
    (hs : s.stack = v :: rest) (hc : rest.length + 1 + depth t ≤ s.cap) (hr : RowsAreTables s.mem t v) :
    (∃ s', get L t (-1) s = .throw s') ↔ ¬ ∃ c, Gives L s.mem t v c := by
  have h := get_read L t s v rest hc
  have e : s.on (v :: rest) = s := by cases s; simp_all [St.on]
  rw [e] at h
  rcases read_throws L s.mem t v hr with ⟨c, hc⟩ | hc
  · rw [hc] at h
    rw [show get L t (-1) s = .ok c (s.on rest) from h]
    refine ⟨(fun ⟨_, h'⟩ => by cases h'), fun h' => (h' ⟨c, (read_gives L s.mem t v c hw).mp hc⟩).elim⟩
  · rw [hc] at h
    obtain ⟨s1, h1, -⟩ := h
    refine ⟨fun _ ⟨c, hg⟩ => ?_, fun _ => ⟨s1, h1⟩⟩
    rw [(read_gives L s.mem t v c hw).mpr hg] at hc
    cases hc

/-- **C57** what a value stands for is what the rules give, and for types without integers, strings and
matrices the converse holds: those three are the only places where the library returns something
the value does not stand for. -/
theorem C57_meant (L : Lua F) (t : Ty) (m : Mem F) (v : Val F) (c : CVal F) :
    (Repr L m t v c → Gives L m t v c) ∧ (Strict t → Gives L m t v c → Repr L m t v c) := by
  induction t generalizing v c with
  | int t =>
    refine ⟨?_, fun h => h.elim⟩
    rintro ⟨i, hi, hr, rfl⟩
    refine ⟨i, i, ?_, hr, ⟨0, by omega⟩, rfl⟩
    rcases hi with h | ⟨x, h, h'⟩
    · exact .inl h
    · exact .inr ⟨x, h, .inl h'⟩
  | float => exact ⟨id, fun _ => id⟩
  | bool => exact ⟨id, fun _ => id⟩
  | str =>
    refine ⟨?_, fun h => h.elim⟩
    rintro ⟨b, hb, h0, rfl⟩
    exact ⟨b, b, hb, h0, .inl rfl, rfl⟩
  | vec t ih =>
    constructor
    · rintro ⟨a, cs, hv, hc, hl, hi⟩
      exact ⟨a, cs, hv, hc, hl, fun i h => (ih _ _).1 (hi i h)⟩
    · rintro hs ⟨a, cs, hv, hc, hl, hi⟩
      exact ⟨a, cs, hv, hc, hl, fun i h => (ih _ _).2 hs (hi i h)⟩
  | arr t N ih =>
    constructor
    · rintro ⟨a, cs, hv, hc, hN, hl, hi⟩
      exact ⟨a, cs, hv, hc, hN, hl, fun i h => (ih _ _).1 (hi i h)⟩
    · rintro hs ⟨a, cs, hv, hc, hN, hl, hi⟩
      exact ⟨a, cs, hv, hc, hN, hl, fun i h => (ih _ _).2 hs (hi i h)⟩
  | mat t M N ih =>
    refine ⟨?_, fun h => h.elim⟩
    rintro ⟨a, rows, hv, hc, hM, hl, hi⟩
    refine ⟨a, rows, hv, hc, hM, hl, fun i h => ?_⟩
    obtain ⟨hN, b, hb, -, hj⟩ := hi i h
    exact ⟨hN, fun j h' => ⟨b, hb, (ih _ _).1 (hj j h')⟩⟩

/-- an out-of-range integer: 300 asked for as an unsigned byte is 44, by `C57_exact` -/
example : get exLua (.int ⟨8, false⟩) (-1) (exOn (.int 300)) = .ok (.int 44) exSt :=
  (C57_exact exLua (.int ⟨8, false⟩) (exOn (.int 300)) (.int 300) [] (by simp [Widths]) rfl (by decide) _ _).mpr
    ⟨⟨300, 44, .inl rfl, ⟨by decide, by decide⟩, ⟨-1, rfl⟩, rfl⟩, rfl⟩

/-- a one-by-one matrix read from a row of two numbers -/
example : get exLua (.mat .float 1 1) (-1) exRow = .ok (.list [.list [.num 11]]) { exRow with stack := [.nil] } :=
  (C57_exact exLua (.mat .float 1 1) exRow (.table 0) [.nil] (by simp [Widths]) rfl (by decide) _ _).mpr
    ⟨⟨0, [[.num 11]], rfl, rfl, rfl, rfl, fun i h => by
      obtain rfl : i = 0 := by simp at h; omega
      exact ⟨rfl, fun j h' => by
        obtain rfl : j = 0 := by simp at h'; omega
        exact ⟨1, rfl, .inr 11, rfl, rfl⟩⟩⟩, rfl⟩

/-- numbers are not booleans: `{ 3, 4 }` as a vector of booleans is refused -/
example : ∃ s', get exLua (.vec .bool) (-1) (exOn (.table 0)) = .throw s' :=
  (C57_refused exLua (.vec .bool) (exOn (.table 0)) (.table 0) [] (by simp [Widths]) rfl (by decide)
    (by intro a _ i; trivial)).mpr fun ⟨c, a, cs, hv, hc, hl, hi⟩ => by
      cases hv
      have h2 : (2 : Nat) = cs.length := hl
      obtain ⟨b, h, -⟩ := hi 0 (by omega)
      cases h

/-- `{ 3, 4 }` stands for the vector of its numbers, and that is what the rules give -/
example : Gives exLua exMem (.vec .float) (.table 0) (.list [.num 3, .num 4]) :=
  (C57_meant exLua (.vec .float) exMem (.table 0) _).1 ⟨0, _, rfl, rfl, rfl, fun i h => by
    have : i = 0 ∨ i = 1 := by simp at h; omega
    rcases this with rfl | rfl
    · exact ⟨.inl 3, rfl, rfl⟩
    · exact ⟨.inl 4, rfl, rfl⟩⟩

end Verif.LuaStack
