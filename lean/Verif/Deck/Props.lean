import Verif.Deck.Lemmas

/-! # C100: an input file's values reach the program -/

namespace Verif.Deck

open Verif.LuaStack
open Verif.InputEngine (LuaSource)

variable {F : Type}

/-! ## the constructor -/

theorem addAll_tableMap (l : List (Bytes × Bytes × Bytes)) : ∀ (src : Source F), (l.map (·.1)).Nodup → ∀ k,
    (addAll src l).tableMap k = match l.find? fun row => row.1 = k with
      | some row => some row.2.1
      | none => src.tableMap k := by
  induction l with
  | nil => intro src _ k; rfl
  | cons row l ih =>
    obtain ⟨k0, tbl, lk⟩ := row
    intro src hn k
    simp only [List.map_cons, List.nodup_cons] at hn
    rw [addAll, ih _ hn.2 k]
    by_cases hk : k0 = k
    · subst hk
      have : l.find? (fun row => decide (row.1 = k0)) = none := by
        rw [List.find?_eq_none]
        intro x hx
        have : x.1 ≠ k0 := fun e => hn.1 (List.mem_map.mpr ⟨x, hx, e⟩)
        simpa using this
      rw [this]
      simp [LuaSource.registerValue]
    · have hk' : k ≠ k0 := fun e => hk e.symm
      rw [List.find?_cons_of_neg (by simpa using hk)]
      simp [LuaSource.registerValue, hk']

theorem addAll_luaKey (l : List (Bytes × Bytes × Bytes)) : ∀ (src : Source F), (l.map (·.1)).Nodup → ∀ k,
    (addAll src l).luaKey k = match l.find? fun row => row.1 = k with
      | some row => (given row.2.2).or (src.luaKey k)
      | none => src.luaKey k := by
  induction l with
  | nil => intro src _ k; rfl
  | cons row l ih =>
    obtain ⟨k0, tbl, lk⟩ := row
    intro src hn k
    simp only [List.map_cons, List.nodup_cons] at hn
    rw [addAll, ih _ hn.2 k]
    by_cases hk : k0 = k
    · subst hk
      have : l.find? (fun row => decide (row.1 = k0)) = none := by
        rw [List.find?_eq_none]
        intro x hx
        have : x.1 ≠ k0 := fun e => hn.1 (List.mem_map.mpr ⟨x, hx, e⟩)
        simpa using this
      rw [this]
      cases hg : given lk <;> simp [LuaSource.registerValue, hg]
    · have hk' : k ≠ k0 := fun e => hk e.symm
      rw [List.find?_cons_of_neg (by simpa using hk)]
      cases hg : given lk <;> simp [LuaSource.registerValue, hk']

theorem addAll_tables (l : List (Bytes × Bytes × Bytes)) : ∀ (src : Source F), (addAll src l).tables = src.tables := by
  induction l with
  | nil => intro src; rfl
  | cons row l ih => intro src; rw [addAll, ih]; rfl

theorem standard_nodup : (standard.map (·.1)).Nodup := by decide
theorem standard_hydro : standard.find? (fun row => row.1 = hydro) = none := by decide
theorem standard_mesh : standard.find? (fun row => row.1 = mesh) = none := by decide

/-- a Lua state just made: nothing on the stack, 20 slots -/
def Fresh (s : St F) : Prop := s.stack = [] ∧ s.cap = 20

/-- the book of the constructor before the tables are loaded -/
def unopened : Book where
  table := Function.update (Function.update (fun _ => none) hydro (some baseState)) mesh (some hydro)
  nick _ := none
  path _ := none

/-- the file is run, and there are free slots unless it returned many values -/
theorem run_fresh (L : Lua F) (file : Bytes) {s0 : St F} (h0 : Fresh s0) {m : Mem F} {rs : List (Val F)}
    (hr : L.script s0.mem (cstr file) = .results m rs) :
    run L file s0 = .ok () { s0 with mem := m, stack := rs.reverse, cap := max 20 rs.length } := by
  obtain ⟨h1, h2⟩ := h0
  unfold run
  have e : push (.func 0) s0 = .ok () { s0 with stack := .func 0 :: s0.stack } := by
    unfold push; rw [if_pos (by rw [h1, h2]; simp)]
  rw [bind_of_ok e]
  have e2 : pcall (fun m _ => L.script m (cstr file)) 0 { s0 with stack := .func 0 :: s0.stack } =
      .ok true { s0 with mem := m, stack := rs.reverse, cap := max 20 rs.length } := by
    simp [pcall, hr, h1, h2]
  rw [bind_of_ok e2]
  rfl

theorem unopened_agrees (m : Mem F) : Agrees m
    { tableMap := Function.update (Function.update (fun _ => none) hydro (some baseState)) mesh (some hydro)
      luaKey := fun _ => none, tables := fun _ => none } unopened :=
  ⟨rfl, rfl, fun _ => rfl⟩

theorem opened_agrees (m : Mem F) (src : Source F) (h : Agrees m src ((unopened.add hydro [hydro]).add mesh [hydro, mesh])) :
    Agrees m (addAll src standard) opened := by
  obtain ⟨h1, h2, h3⟩ := h
  have n1 : unopened.path hydro = none := rfl
  have e1 : unopened.add hydro [hydro] = { unopened with path := Function.update unopened.path hydro (some [hydro]) } := rfl
  have hm : mesh ≠ hydro := by decide
  have e2 : (unopened.add hydro [hydro]).add mesh [hydro, mesh] = { unopened with
      path := Function.update (Function.update unopened.path hydro (some [hydro])) mesh (some [hydro, mesh]) } := by
    rw [e1]; unfold Book.add
    have : (Function.update unopened.path hydro (some [hydro])) mesh = none := by
      rw [Function.update_of_ne hm]; rfl
    simp only [this]
  rw [e2] at h1 h2 h3
  refine ⟨?_, ?_, ?_⟩
  · funext k
    rw [addAll_tableMap _ _ standard_nodup, h1]
    show _ = opened.table k
    simp only [opened, unopened]
    by_cases hk : k = hydro
    · subst hk; rw [standard_hydro, if_pos rfl]; simp [Function.update_of_ne hm.symm]
    · by_cases hk' : k = mesh
      · subst hk'; rw [standard_mesh, if_neg hk, if_pos rfl]; simp
      · rw [if_neg hk, if_neg hk']
        cases standard.find? (fun row => decide (row.1 = k)) with
        | none => simp [hk, hk']
        | some row => rfl
  · funext k
    rw [addAll_luaKey _ _ standard_nodup, h2]
    simp only [opened, unopened]
    cases standard.find? (fun row => decide (row.1 = k)) with
    | none => rfl
    | some row => simp
  · intro n
    rw [addAll_tables, h3]
    simp only [opened]
    by_cases hn : n = mesh
    · subst hn; rw [if_neg hm, if_pos rfl]; simp
    · by_cases hn' : n = hydro
      · subst hn'; rw [if_pos rfl, Function.update_of_ne hn]; simp
      · rw [if_neg hn', if_neg hn, Function.update_of_ne hn, Function.update_of_ne hn']; rfl

theorem openFile_result (L : Lua F) (hL : 21 ≤ L.maxStack) (file : Bytes) {s0 : St F} (h0 : Fresh s0) {m : Mem F}
    {rs : List (Val F)} (hr : L.script s0.mem (cstr file) = .results m rs) (hn : rs.length < 20) :
    ((∃ a, valueAt m [hydro] = .table a) ∧ valueAt m [hydro, mesh] ≠ .nil ∧
      ∃ src s, openFile L file s0 = .ok src s ∧ Agrees m src opened ∧ Idle m s) ∨
    (¬ ((∃ a, valueAt m [hydro] = .table a) ∧ valueAt m [hydro, mesh] ≠ .nil) ∧ ∃ s, openFile L file s0 = .throw s) := by
  have hcs : cstr hydro = hydro := by decide
  have e0 := run_fresh L file h0 hr
  generalize hs1 : ({ s0 with mem := m, stack := rs.reverse, cap := max 20 rs.length } : St F) = s1 at e0
  have i1 : Idle m s1 := by
    subst hs1
    exact ⟨rfl, ⟨Nat.le_max_left _ _, by simp only; omega⟩, by simp; omega⟩
  unfold openFile
  rw [bind_of_ok e0]
  have ag := unopened_agrees m
  have ht : Tables m unopened := fun n p h => by cases h
  have htb : unopened.table hydro = some baseState := by
    have hm : mesh ≠ hydro := by decide
    simp [unopened, Function.update_of_ne hm.symm]
  have hbel : unopened.below hydro baseState = some [hydro] := by
    unfold Book.below; rw [if_pos rfl, hcs]
  obtain ⟨p, hp, hpr, s2, e2, i2⟩ | ⟨hno, s2, e2, i2⟩ := loadTable_told L hL ag ht hydro baseState htb i1
  · rw [hbel] at hp
    obtain rfl := Option.some.inj hp
    have ag2 := agrees_add ag hydro [hydro]
    rw [bind_of_ok e2]
    have hadd : (unopened.add hydro [hydro]).path = Function.update unopened.path hydro (some [hydro]) := rfl
    have htab : (unopened.add hydro [hydro]).table = unopened.table := rfl
    have hp3 : (unopened.add hydro [hydro]).path hydro = some [hydro] := by rw [hadd]; simp
    by_cases ha : ∃ a, valueAt m [hydro] = .table a
    · have ht2 : Tables m (unopened.add hydro [hydro]) := by
        intro n p h
        rw [hadd] at h
        by_cases hnn : n = hydro
        · subst hnn; rw [Function.update_self] at h; cases h; exact ha
        · rw [Function.update_of_ne hnn] at h; cases h
      have htm : (unopened.add hydro [hydro]).table mesh = some hydro := by rw [htab]; simp [unopened]
      have hbel2 : (unopened.add hydro [hydro]).below mesh hydro = some [hydro, mesh] := by
        unfold Book.below
        rw [if_neg (by decide), hp3]; rfl
      obtain ⟨p, hp, hpr, s3, e3, i3⟩ | ⟨hno, s3, e3, i3⟩ := loadTable_told L hL ag2 ht2 mesh hydro htm i2
      · rw [hbel2] at hp
        obtain rfl := Option.some.inj hp
        left
        refine ⟨ha, fun e => ?_, _, s3, by rw [bind_of_ok e3]; rfl, ?_, i3⟩
        · rw [e] at hpr; cases hpr
        · exact opened_agrees m _ (agrees_add ag2 mesh [hydro, mesh])
      · right
        refine ⟨fun h => ?_, s3, by rw [bind_of_throw e3]⟩
        have := hno _ hbel2
        cases hv : valueAt m [hydro, mesh] with
        | nil => exact h.2 hv
        | _ => rw [hv] at this; cases this
    · right
      refine ⟨fun h => ha h.1, ?_⟩
      -- `hydro` is there but is not a table
      have hv : ∀ a, valueAt m [hydro] ≠ .table a := fun a h => ha ⟨a, h⟩
      obtain ⟨s3, e3, -, -, -⟩ := field_not_table L m (valueAt m [hydro]) hv mesh (s := s2) (by have := i2.2.2; omega)
      refine ⟨s3, bind_of_throw ?_⟩
      unfold loadTable
      rw [ag2.1, htab]
      have : unopened.table mesh = some hydro := by simp [unopened]
      rw [this]
      dsimp only
      rw [if_neg (by decide), ag2.2.2 hydro, hp3]
      exact bind_of_throw (bind_of_throw e3)
  · right
    rw [bind_of_throw e2]
    refine ⟨?_, s2, rfl⟩
    rintro ⟨⟨a, ha⟩, -⟩
    have := hno _ hbel
    rw [ha] at this; cases this

/-- **C100** Opening an input file: it is run, and when it ends normally with fewer than 20 results,
opening succeeds exactly if the global `hydro` is a table with something under `mesh`; otherwise it
throws.  For every file, every interpreter, every contents. -/
theorem C100_open_iff (L : Lua F) (hL : 21 ≤ L.maxStack) (file : Bytes) {s0 : St F} (h0 : Fresh s0) {m : Mem F}
    {rs : List (Val F)} (hr : L.script s0.mem (cstr file) = .results m rs) (hn : rs.length < 20) :
    ((∃ src s, openFile L file s0 = .ok src s) ↔ (∃ a, valueAt m [hydro] = .table a) ∧ valueAt m [hydro, mesh] ≠ .nil) ∧
    ((∃ s, openFile L file s0 = .throw s) ↔ ¬ ((∃ a, valueAt m [hydro] = .table a) ∧ valueAt m [hydro, mesh] ≠ .nil)) := by
  obtain ⟨ha, hb, src, s, e, -⟩ | ⟨hno, s, e⟩ := openFile_result L hL file h0 hr hn
  · refine ⟨⟨fun _ => ⟨ha, hb⟩, fun _ => ⟨src, s, e⟩⟩, ⟨fun ⟨s', e'⟩ => ?_, fun h => absurd ⟨ha, hb⟩ h⟩⟩
    rw [e] at e'; cases e'
  · refine ⟨⟨fun ⟨src, s', e'⟩ => ?_, fun h => absurd h hno⟩, ⟨fun _ => hno, fun _ => ⟨s, e⟩⟩⟩
    rw [e] at e'; cases e'

/-- **C100** A file that fails to load makes the constructor throw. -/
theorem C100_open_error (L : Lua F) (file : Bytes) {s0 : St F} (h0 : Fresh s0) {m : Mem F} {x : Val F}
    (hr : L.script s0.mem (cstr file) = .error m x) : ∃ s, openFile L file s0 = .throw s := by
  obtain ⟨h1, h2⟩ := h0
  have e : push (.func 0) s0 = .ok () { s0 with stack := .func 0 :: s0.stack } := by
    unfold push; rw [if_pos (by rw [h1, h2]; simp)]
  have e2 : pcall (fun m _ => L.script m (cstr file)) 0 { s0 with stack := .func 0 :: s0.stack } =
      .ok false { s0 with mem := m, stack := [x] } := by
    simp [pcall, hr, h1]
  refine ⟨_, bind_of_throw (s' := { s0 with mem := m, stack := [x] }) ?_⟩
  unfold run
  rw [bind_of_ok e, bind_of_ok e2]
  rfl

/-- **C100** A program that opens an input file and then asks for values, sizes and tables,
locates keys and loads tables, in any order and number, catching the exceptions, is told call by
call what the file says, whatever the calls before left on the Lua stack.  (For everything loaded
as a table being one, and types nested at most 18 deep; the only undefined calls are those the
conversion itself leaves undefined.) -/
theorem C100_program (L : Lua F) (hL : 21 ≤ L.maxStack) (file : Bytes) {s0 : St F} (h0 : Fresh s0) {m : Mem F}
    {rs : List (Val F)} (hr : L.script s0.mem (cstr file) = .results m rs) (hn : rs.length < 20)
    {src : Source F} {s : St F} (ho : openFile L file s0 = .ok src s) (qs : List Query) (ht : Tame L m opened qs)
    (hq : Shallow qs) : (session L src s qs).map (·.1) = (toldAll L m opened qs).map (·.1) := by
  obtain ⟨-, -, src', s', e, ag, hi⟩ | ⟨-, s', e⟩ := openFile_result L hL file h0 hr hn
  · rw [e] at ho
    cases ho
    have := session_told L hL qs ag ht hq hi
    cases hs : toldAll L m opened qs with
    | none => rw [hs] at this; dsimp only at this; rw [this]; rfl
    | some r =>
      rw [hs] at this
      obtain ⟨src1, s1, e1, -⟩ := this
      rw [e1]; rfl
  · rw [e] at ho; cases ho

end Verif.Deck
