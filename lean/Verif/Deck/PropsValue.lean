import Verif.Deck.Props
import Verif.Deck.Demo

/-! # C100: which value of the file each key gets; where the source goes wrong -/

namespace Verif.Deck

open Verif.LuaStack
open Verif.InputEngine (LuaSource)

variable {F : Type}

/-- every standard key and where in the file its value is -/
def documented : List (List Char × List (List Char)) :=
  [(['p', 'r', 'e', 'f', 'i', 'x'], [['h', 'y', 'd', 'r', 'o'], ['p', 'r', 'e', 'f', 'i', 'x']]),
   (['s', 'u', 'f', 'f', 'i', 'x'], [['h', 'y', 'd', 'r', 'o'], ['p', 'o', 's', 't', 'f', 'i', 'x']]),
   (['o', 'u', 't', 'p', 'u', 't', '_', 'f', 'r', 'e', 'q'],
    [['h', 'y', 'd', 'r', 'o'], ['o', 'u', 't', 'p', 'u', 't', '_', 'f', 'r', 'e', 'q']]),
   (['C', 'F', 'L'], [['h', 'y', 'd', 'r', 'o'], ['C', 'F', 'L']]),
   (['f', 'i', 'n', 'a', 'l', '_', 't', 'i', 'm', 'e'],
    [['h', 'y', 'd', 'r', 'o'], ['f', 'i', 'n', 'a', 'l', '_', 't', 'i', 'm', 'e']]),
   (['m', 'a', 'x', '_', 's', 't', 'e', 'p', 's'], [['h', 'y', 'd', 'r', 'o'], ['m', 'a', 'x', '_', 's', 't', 'e', 'p', 's']]),
   (['m', 'e', 's', 'h', '_', 't', 'y', 'p', 'e'], [['h', 'y', 'd', 'r', 'o'], ['m', 'e', 's', 'h'], ['t', 'y', 'p', 'e']]),
   (['d', 'i', 'm', 'e', 'n', 's', 'i', 'o', 'n', 's'],
    [['h', 'y', 'd', 'r', 'o'], ['m', 'e', 's', 'h'], ['d', 'i', 'm', 'e', 'n', 's', 'i', 'o', 'n', 's']]),
   (['x', 'm', 'i', 'n'], [['h', 'y', 'd', 'r', 'o'], ['m', 'e', 's', 'h'], ['x', 'm', 'i', 'n']]),
   (['x', 'm', 'a', 'x'], [['h', 'y', 'd', 'r', 'o'], ['m', 'e', 's', 'h'], ['x', 'm', 'a', 'x']]),
   (['f', 'i', 'l', 'e'], [['h', 'y', 'd', 'r', 'o'], ['m', 'e', 's', 'h'], ['f', 'i', 'l', 'e']]),
   (['i', 'c', 's', '_', 'f', 'u', 'n', 'c'], [['h', 'y', 'd', 'r', 'o'], ['i', 'c', 's']]),
   (['m', 'e', 's', 'h'], [['h', 'y', 'd', 'r', 'o'], ['m', 'e', 's', 'h']])]

/-- the names the constructor gives the keys, as a list of paths -/
def openedPath (k : Bytes) : Option (List Bytes) :=
  match opened.table k with
  | none => none
  | some n => match opened.path n with
    | none => none
    | some p => some (p ++ [(opened.nick k).getD k])

theorem documented_path : ∀ row ∈ documented, openedPath (name row.1) = some (row.2.map name) := by decide

theorem find_opened (m : Mem F) (k : Bytes) (p : List Bytes) (h : openedPath k = some p) (ht : Tables m opened) :
    opened.find m k = some (valueAt m p) := by
  unfold openedPath at h
  unfold Book.find
  cases hb : opened.table k with
  | none => rw [hb] at h; cases h
  | some n =>
    rw [hb] at h
    dsimp only at h ⊢
    cases hp : opened.path n with
    | none => rw [hp] at h; cases h
    | some q =>
      rw [hp] at h
      cases h
      obtain ⟨a, ha⟩ := ht n q hp
      dsimp only
      rw [ha]

theorem opened_tables (m : Mem F) {a : Nat} (ha : valueAt m [hydro] = .table a) {a' : Nat}
    (hm : valueAt m [hydro, mesh] = .table a') : Tables m opened := by
  intro n p h
  simp only [opened] at h
  by_cases hn : n = hydro
  · rw [if_pos hn] at h; cases h; exact ⟨a, ha⟩
  · rw [if_neg hn] at h
    by_cases hn' : n = mesh
    · rw [if_pos hn'] at h; cases h; exact ⟨a', hm⟩
    · rw [if_neg hn'] at h; cases h

/-- whatever a Lua value stands for is what is read -/
theorem read_repr (L : Lua F) (m : Mem F) (t : Ty) (v : Val F) (c : CVal F) (hw : Widths t) (h : Repr L m t v c) :
    read L m t v = .ok c := by
  have e := get_repr L t (⟨m, [], 1 + depth t, .nil⟩ : St F) v [] c hw (by simp) h
  have d := get_read L t (⟨m, [], 1 + depth t, .nil⟩ : St F) v [] (by simp)
  cases hr : read L m t v with
  | ok c' => rw [hr] at d; have := e.symm.trans d; cases this; rfl
  | throws x => rw [hr] at d; obtain ⟨s, d, -⟩ := d; have := e.symm.trans d; cases this
  | ub => rw [hr] at d; have := e.symm.trans d; cases this
  | _ => rw [hr] at d; exact d.elim

/-- **C100** After opening a file in which `hydro` and `hydro.mesh` are tables, each of the standard
keys gives the value at its documented place: as a C++ value of the type asked for if the value
there stands for one, nothing if there is `nil`; `get_size` gives its length and the raw getter
the value itself. -/
theorem C100_standard (L : Lua F) (hL : 21 ≤ L.maxStack) (file : Bytes) {s0 : St F} (h0 : Fresh s0) {m : Mem F}
    {rs : List (Val F)} (hr : L.script s0.mem (cstr file) = .results m rs) (hn : rs.length < 20)
    {a a' : Nat} (ha : valueAt m [hydro] = .table a) (hm : valueAt m [hydro, mesh] = .table a')
    {row : List Char × List (List Char)} (hrow : row ∈ documented) :
    ∃ src s, openFile L file s0 = .ok src s ∧
      (∀ t c, Widths t → depth t ≤ 18 → Repr L m t (valueAt m (row.2.map name)) c → valueAt m (row.2.map name) ≠ .nil →
        ∃ s', getValue L src t (name row.1) s = .ok (some c) s' ∧ s'.stack = []) ∧
      (∀ t, valueAt m (row.2.map name) = .nil → ∃ s', getValue L src t (name row.1) s = .ok none s' ∧ s'.stack = []) ∧
      (∃ s', getSize L src (name row.1) s = .ok (rawlen m (valueAt m (row.2.map name))) s' ∧ s'.stack = []) ∧
      ∃ s' found size, getRaw L src (name row.1) s = .ok (found, ⟨[valueAt m (row.2.map name)], size⟩) s' ∧ s'.stack = [] ∧
        (found = true ↔ valueAt m (row.2.map name) ≠ .nil) := by
  have ht := opened_tables m ha hm
  have hf := find_opened m _ _ (documented_path row hrow) ht
  generalize hv : valueAt m (row.2.map name) = v at hf ⊢
  obtain ⟨-, -, src, s, e, ag, hi⟩ | ⟨hno, -⟩ := openFile_result L hL file h0 hr hn
  rotate_left
  · exact absurd ⟨⟨a, ha⟩, by rw [hm]; simp⟩ hno
  obtain ⟨e1, -⟩ | ⟨v', s1, e1, ef, k1, k2, k3⟩ := find_told L ag ht (name row.1) hi hL
  · rw [e1] at hf; cases hf
  rw [e1] at hf
  obtain rfl := Option.some.inj hf
  refine ⟨src, s, e, fun t c hw hd hrep hne => ?_, fun t hnil => ?_, ?_, ?_⟩
  · obtain ⟨s2, n1, n2, n3, hdo⟩ := convert_read L m v' t k2 (by rw [k1]; simp; omega) (by rw [k1]; simp; omega)
    rw [read_repr L m t v' c hw hrep] at hdo
    refine ⟨s2, ?_, n1.trans k1⟩
    unfold getValue
    rw [bind_of_ok ef, whole_empty, if_neg (by cases v' <;> simp_all [present]), bind_of_ok hdo]
    rfl
  · subst hnil
    refine ⟨s1, ?_, k1⟩
    unfold getValue
    rw [bind_of_ok ef]
    rfl
  · exact ⟨s1, by unfold getSize; rw [bind_of_ok ef]; rfl, k1⟩
  · refine ⟨s1, _, _, by unfold getRaw; rw [bind_of_ok ef]; rfl, k1, ?_⟩
    rw [whole_empty]
    cases v' <;> simp [present]

/-- `xmin` of the example file is `{ 3, 4 }`, and `prefix` is missing -/
example : ∃ src s, openFile deckLua [1] deckSt = .ok src s ∧
    (∃ s', getValue deckLua src (.arr .float 2) xmin s = .ok (some (.list [.num 3, .num 4])) s' ∧ s'.stack = []) ∧
    ∃ s', getSize deckLua src xmin s = .ok 2 s' ∧ s'.stack = [] := by
  obtain ⟨src, s, e, h1, -, h3, -⟩ := C100_standard deckLua (by decide) [1] (s0 := deckSt) ⟨rfl, rfl⟩ (m := deckMem) (rs := [.int 1])
    rfl (by decide) (a := 0) (a' := 1) rfl rfl
    (row := (['x', 'm', 'i', 'n'], [['h', 'y', 'd', 'r', 'o'], ['m', 'e', 's', 'h'], ['x', 'm', 'i', 'n']])) (by decide)
  refine ⟨src, s, e, h1 (.arr .float 2) _ trivial (by decide) ?_ ?_, h3⟩
  · refine ⟨2, [.num 3, .num 4], rfl, rfl, rfl, rfl, ?_⟩
    rintro (_ | _ | i) hi
    · exact ⟨.inr 3, rfl, rfl⟩
    · exact ⟨.inr 4, rfl, rfl⟩
    · simp at hi; omega
  · have : valueAt deckMem ([['h', 'y', 'd', 'r', 'o'], ['m', 'e', 's', 'h'], ['x', 'm', 'i', 'n']].map name) = .table 2 := rfl
    rw [this]; simp

/-- opening: the example file opens, the one that fails to load does not -/
example : (∃ src s, openFile deckLua [1] deckSt = .ok src s) ∧ ∃ s, openFile deckLua [3] deckSt = .throw s :=
  ⟨((C100_open_iff deckLua (by decide) [1] (s0 := deckSt) ⟨rfl, rfl⟩ (m := deckMem) (rs := [.int 1]) rfl (by decide)).1).mpr
      ⟨⟨0, rfl⟩, by have : valueAt deckMem [hydro, mesh] = .table 1 := rfl
                    rw [this]; simp⟩,
    C100_open_error deckLua [3] (s0 := deckSt) ⟨rfl, rfl⟩ (m := deckSt.mem) (x := .str []) rfl⟩

/-- the calls of the example: a value of the wrong type, a new table, a key in it, its value -/
def deckCalls : List Query :=
  [.value .bool cfl, .load eos baseState [], .locate gas eos [], .value (.int ⟨32, true⟩) gas]

theorem deck_tame : Tame deckLua deckMem opened deckCalls := by
  have h0 : Tables deckMem opened := opened_tables deckMem (a := 0) rfl (a' := 1) rfl
  have h1 : Tables deckMem (((opened.locate eos baseState []).add eos [eos])) := by
    intro n p h
    by_cases hn : n = eos
    · subst hn
      have : ((opened.locate eos baseState []).add eos [eos]).path eos = some [eos] := rfl
      rw [this] at h; cases h; exact ⟨3, rfl⟩
    · refine h0 n p ?_
      have : ((opened.locate eos baseState []).add eos [eos]).path = Function.update opened.path eos (some [eos]) := rfl
      rw [this, Function.update_of_ne hn] at h
      exact h
  refine ⟨h0, fun a b' h => ?_⟩
  have e1 : told deckLua deckMem opened (.value .bool cfl) = some (.threw, opened) := rfl
  rw [e1] at h; cases h
  refine ⟨h0, fun a b' h => ?_⟩
  have e2 : told deckLua deckMem opened (.load eos baseState []) =
    some (.replaced false, (opened.locate eos baseState []).add eos [eos]) := rfl
  rw [e2] at h; cases h
  refine ⟨h1, fun a b' h => ?_⟩
  have e3 : told deckLua deckMem ((opened.locate eos baseState []).add eos [eos]) (.locate gas eos []) =
    some (.replaced false, ((opened.locate eos baseState []).add eos [eos]).locate gas eos []) := rfl
  rw [e3] at h; cases h
  exact ⟨h1, fun _ _ _ => trivial⟩

example : ∃ src s, openFile deckLua [1] deckSt = .ok src s ∧ (session deckLua src s deckCalls).map (·.1) =
    some [.threw, .replaced false, .replaced false, .value (some (.int 7))] := by
  obtain ⟨src, s, e, -⟩ := C100_standard deckLua (by decide) [1] (s0 := deckSt) ⟨rfl, rfl⟩ (m := deckMem) (rs := [.int 1])
    rfl (by decide) (a := 0) (a' := 1) rfl rfl (row := (['C', 'F', 'L'], [['h', 'y', 'd', 'r', 'o'], ['C', 'F', 'L']])) (by decide)
  refine ⟨src, s, e, ?_⟩
  rw [C100_program deckLua (by decide) [1] (s0 := deckSt) ⟨rfl, rfl⟩ (m := deckMem) (rs := [.int 1]) rfl (by decide) e deckCalls
    deck_tame (by
      intro t k h
      simp only [deckCalls, List.mem_cons, Query.value.injEq, List.not_mem_nil, or_false, reduceCtorEq, false_or] at h
      rcases h with ⟨rfl, -⟩ | ⟨rfl, -⟩ <;> decide)]
  rfl

/-! ## where it goes wrong -/

/-- **C100** is false for sizes: "throws exception if key is not found", says the documentation of
`get_size`, but a key missing from the file has size 0.  For every file and standard key. -/
theorem C100_size_fails (L : Lua F) (hL : 21 ≤ L.maxStack) (file : Bytes) {s0 : St F} (h0 : Fresh s0) {m : Mem F}
    {rs : List (Val F)} (hr : L.script s0.mem (cstr file) = .results m rs) (hn : rs.length < 20)
    {a a' : Nat} (ha : valueAt m [hydro] = .table a) (hm : valueAt m [hydro, mesh] = .table a')
    {row : List Char × List (List Char)} (hrow : row ∈ documented) (hnil : valueAt m (row.2.map name) = .nil) :
    ∃ src s s', openFile L file s0 = .ok src s ∧ getSize L src (name row.1) s = .ok 0 s' := by
  obtain ⟨src, s, e, -, -, ⟨s', h, -⟩, -⟩ := C100_standard L hL file h0 hr hn ha hm hrow
  rw [hnil] at h
  exact ⟨src, s, s', e, h⟩

/-- the example file has no `prefix` -/
example : ∃ src s s', openFile deckLua [1] deckSt = .ok src s ∧ getSize deckLua src (name ['p', 'r', 'e', 'f', 'i', 'x']) s = .ok 0 s' :=
  C100_size_fails deckLua (by decide) [1] (s0 := deckSt) ⟨rfl, rfl⟩ (m := deckMem) (rs := [.int 1]) rfl (by decide)
    (a := 0) (a' := 1) rfl rfl
    (row := (['p', 'r', 'e', 'f', 'i', 'x'], [['h', 'y', 'd', 'r', 'o'], ['p', 'r', 'e', 'f', 'i', 'x']])) (by decide) rfl

/-- **C100** is false for a file that returns 20 values or more: they fill the Lua stack, and the
constructor pushes `hydro` beyond it, which is undefined. -/
theorem C100_returns_fails (L : Lua F) (file : Bytes) {s0 : St F} (h0 : Fresh s0) {m : Mem F}
    {rs : List (Val F)} (hr : L.script s0.mem (cstr file) = .results m rs) (hn : 20 ≤ rs.length) :
    openFile L file s0 = .ub := by
  unfold openFile
  rw [bind_of_ok (run_fresh L file h0 hr)]
  refine bind_of_ub ?_
  unfold loadTable
  have htb : unopened.table hydro = some baseState := by
    have hm : mesh ≠ hydro := by decide
    simp [unopened, Function.update_of_ne hm.symm]
  show (match unopened.table hydro with | none => throwE | some fromName => _ : M F (Source F)) _ = _
  rw [htb]
  dsimp only
  rw [if_pos rfl]
  refine bind_of_ub (bind_of_ub (global_full hydro ?_))
  simp only [List.length_reverse]
  omega

example : openFile deckLua [4] deckSt = .ub :=
  C100_returns_fails deckLua [4] (s0 := deckSt) ⟨rfl, rfl⟩ (m := deckMem) (rs := List.replicate 20 .nil) rfl (by simp)

/-- every failed lookup in something that is not a table leaves it on the stack -/
theorem leaks (L : Lua F) {m : Mem F} {src : Source F} {b : Book} (ag : Agrees m src b) (t : Ty) (k n : Bytes)
    (p : List Bytes) (hk : b.table k = some n) (hp : b.path n = some p) (hv : ∀ a, valueAt m p ≠ .table a) (rest : List Query) :
    ∀ (j : Nat) (s : St F), s.mem = m → s.stack.length + j ≤ L.maxStack → s.stack.length ≤ s.cap →
    ∃ s', (session L src s (List.replicate j (.value t k) ++ rest)).map (·.1) =
        (session L src s' rest).map (fun r => List.replicate j .threw ++ r.1) ∧
      s'.mem = m ∧ s'.stack.length = s.stack.length + j ∧ s'.cap = max s.cap (s.stack.length + j) := by
  intro j
  induction j with
  | zero =>
    intro s hm _ hc
    refine ⟨s, ?_, hm, rfl, by omega⟩
    simp
  | succ j ih =>
    intro s hm hl hc
    obtain ⟨s1, e1, h1, m1, c1⟩ := field_not_table L m (valueAt m p) hv ((b.nick k).getD k) (s := s) (by omega)
    have hf : find L src k s = .throw s1 := by
      unfold find
      rw [ag.1, ag.2.1, hk]
      dsimp only
      rw [ag.2.2 n, hp]
      exact e1
    have ha : ask L src s (.value t k) = some (.threw, src, s1) := by
      simp only [ask, getValue]
      rw [bind_of_throw hf]; rfl
    obtain ⟨s2, e2, m2, l2, c2⟩ := ih s1 (m1.trans hm) (by rw [h1]; simp; omega) (by rw [h1, c1]; simp)
    refine ⟨s2, ?_, m2, by rw [l2, h1]; simp; omega, ?_⟩
    · rw [List.replicate_succ, List.cons_append, session, ha]
      dsimp only
      generalize session L src s1 (List.replicate j (Query.value t k) ++ rest) = r1 at e2 ⊢
      cases h2 : session L src s2 rest with
      | none =>
        rw [h2] at e2
        cases r1 with
        | none => rfl
        | some r => cases e2
      | some r =>
        rw [h2] at e2
        cases r1 with
        | none => cases e2
        | some r' =>
          simp only [Option.map_some, Option.some.injEq] at e2 ⊢
          rw [e2]; rfl
    · rw [c2, c1, h1]; simp only [List.length_cons]; omega

/-- **C100** is false for a file whose `mesh` is not a table: opening accepts it, and every lookup
below it throws and leaves a value on the Lua stack.  After 20 or more of them, registering a
global table is undefined behaviour. -/
theorem C100_leak_fails (L : Lua F) (hL : 21 ≤ L.maxStack) (file : Bytes) {s0 : St F} (h0 : Fresh s0) {m : Mem F}
    {rs : List (Val F)} (hr : L.script s0.mem (cstr file) = .results m rs) (hn : rs.length < 20)
    {a : Nat} (ha : valueAt m [hydro] = .table a) (hm : ∀ a, valueAt m [hydro, mesh] ≠ .table a)
    (hm' : valueAt m [hydro, mesh] ≠ .nil) (t : Ty) (n lk : Bytes) (j : Nat) (hj : 21 ≤ j) (hj' : j + 20 ≤ L.maxStack) :
    ∃ src s, openFile L file s0 = .ok src s ∧
      (session L src s (List.replicate j (.value t xmin))).map (·.1) = some (List.replicate j .threw) ∧
      session L src s (List.replicate j (.value t xmin) ++ [.load n baseState lk]) = none := by
  obtain ⟨-, -, src, s, e, ag, i1, i2, i3⟩ | ⟨hno, -⟩ := openFile_result L hL file h0 hr hn
  rotate_left
  · exact absurd ⟨⟨a, ha⟩, hm'⟩ hno
  have hk : opened.table xmin = some mesh := by decide
  have hp : opened.path mesh = some [hydro, mesh] := by decide
  refine ⟨src, s, e, ?_, ?_⟩
  · obtain ⟨s1, e1, -⟩ := leaks L ag t xmin mesh [hydro, mesh] hk hp hm [] j s i1 (by omega) (by omega)
    rw [List.append_nil] at e1
    rw [e1]
    simp [session]
  · obtain ⟨s1, e1, h1, h2, h3⟩ := leaks L ag t xmin mesh [hydro, mesh] hk hp hm [.load n baseState lk] j s i1 (by omega) (by omega)
    have hb : session L src s1 [.load n baseState lk] = none := by
      have : ask L src s1 (.load n baseState lk) = none := by
        simp only [ask, registerTable]
        have hl : loadTable L (src.registerValue n baseState (given lk)).2 n s1 = .ub := by
          unfold loadTable
          have : (src.registerValue n baseState (given lk)).2.tableMap n = some baseState := by
            simp [LuaSource.registerValue]
          rw [this]
          dsimp only
          rw [if_pos rfl]
          exact bind_of_ub (bind_of_ub (global_full n (by omega)))
        rw [bind_of_ub hl]
        rfl
      rw [session, this]
    rw [hb] at e1
    cases hs : session L src s (List.replicate j (Query.value t xmin) ++ [Query.load n baseState lk]) with
    | none => rfl
    | some r => rw [hs] at e1; cases e1

example : ∃ src s, openFile deckLua [2] deckSt = .ok src s ∧
    (session deckLua src s (List.replicate 30 (.value .float xmin))).map (·.1) = some (List.replicate 30 .threw) ∧
    session deckLua src s (List.replicate 30 (.value .float xmin) ++ [.load eos baseState []]) = none := by
  have : valueAt flatMem [hydro, mesh] = .int 5 := rfl
  exact C100_leak_fails deckLua (by decide) [2] (s0 := deckSt) ⟨rfl, rfl⟩ (m := flatMem) (rs := []) rfl (by decide) (a := 0) rfl
    (by rw [this]; simp) (by rw [this]; simp) .float eos [] 30 (by decide) (by decide)

end Verif.Deck
