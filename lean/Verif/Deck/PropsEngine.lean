import Verif.Deck.PropsValue
import Verif.InputEngine.Props

/-! # C100: from the file to the program's inputs -/

namespace Verif.Deck

open Verif.LuaStack
open Verif.InputEngine (LuaSource Env Engine slice missing)

variable {F : Type}

/-- the answers of Lua that `Verif.InputEngine.Model` takes as a parameter, for a file with the
values `m`; `moved` is what moving out of a variable leaves there -/
def deckEnv (L : Lua F) (m : Mem F) (moved : Ty → CVal F → CVal F) : Env Bytes Ty (Result F) (fun _ => CVal F) where
  isFun _ := false
  moved := moved
  as t r := match r.refs with
    | [v] => read L m t v
    | _ => mismatch
  index r k := match r.refs with
    | [v] => ofTable v fun a => .ok (if present ((m.heap a).gets k) then some (whole m ((m.heap a).gets k)) else none)
    | _ => mismatch

theorem get_deck (L : Lua F) (m : Mem F) (moved : Ty → CVal F → CVal F) {src : Source F} {b : Book} (ag : Agrees m src b)
    (ht : Tables m b) (t : Ty) (k : Bytes) : src.get (deckEnv L m moved) t k = match b.find m k with
      | none => .throws "exception"
      | some v => if present v then slice false (do return some (← read L m t v)) else .ok none := by
  obtain ⟨h1, h2, h3⟩ := ag
  unfold LuaSource.get Book.find
  rw [h1, h2]
  cases b.table k with
  | none => rfl
  | some n =>
    dsimp only
    rw [h3 n]
    cases hp : b.path n with
    | none => rfl
    | some p =>
      obtain ⟨a, ha⟩ := ht n p hp
      simp only [Option.map_some]
      rw [ha, valueAt_snoc_table m p _ a ha]
      have e : (deckEnv L m moved).index (whole m (.table a)) ((b.nick k).getD k) =
        .ok (if present ((m.heap a).gets ((b.nick k).getD k)) then some (whole m ((m.heap a).gets ((b.nick k).getD k))) else none) := rfl
      rw [e]
      cases hpr : present ((m.heap a).gets ((b.nick k).getD k)) with
      | true => dsimp only; rw [hpr]; rfl
      | false => dsimp only; rw [hpr]; rfl

/-- **C100** What the input engine takes from Lua (the parameter of `Verif.InputEngine.Model`) is what
the source answers on the real stack, at any point of a program: it returns the same, throws where
the other throws, is undefined where the other is, and is ready for the next call. -/
theorem C100_refines (L : Lua F) (hL : 21 ≤ L.maxStack) {m : Mem F} (moved : Ty → CVal F → CVal F) {src : Source F} {b : Book}
    (ag : Agrees m src b) (ht : Tables m b) (t : Ty) (hd : depth t ≤ 18) (k : Bytes) {s : St F} (hi : Idle m s) :
    match src.get (deckEnv L m moved) t k with
    | .ok c => ∃ s', getValue L src t k s = .ok c s' ∧ Idle m s'
    | .throws _ => ∃ s', getValue L src t k s = .throw s' ∧ Idle m s'
    | .ub => getValue L src t k s = .ub
    | _ => False := by
  rw [get_deck L m moved ag ht t k]
  unfold getValue
  obtain ⟨e, ef⟩ | ⟨v, s1, e, ef, k1, k2, k3⟩ := find_told L ag ht k hi hL
  · rw [e, bind_of_throw ef]
    exact ⟨s, rfl, hi⟩
  · rw [e, bind_of_ok ef, whole_empty]
    dsimp only
    cases hp : present v with
    | false =>
      rw [if_neg (by simp), if_pos (by simp)]
      exact ⟨s1, rfl, idle_of k1 k2 k3⟩
    | true =>
      rw [if_pos rfl, if_neg (by simp)]
      obtain ⟨s2, n1, n2, n3, hdo⟩ := convert_read L m v t k2 (by rw [k1]; simp; omega) (by rw [k1]; simp; omega)
      rw [k1, List.length_nil] at n3 hdo
      cases hr : read L m t v with
      | ok c =>
        rw [hr] at hdo
        exact ⟨s2, by rw [bind_of_ok hdo]; rfl, idle_of (n1.trans k1) n2 (by omega)⟩
      | throws x =>
        rw [hr] at hdo
        obtain ⟨s3, e3, o1, o2, o3⟩ := hdo
        exact ⟨s3, by rw [bind_of_throw e3], o1, by omega, by omega⟩
      | ub => rw [hr] at hdo; exact bind_of_ub hdo
      | _ => rw [hr] at hdo; exact hdo.elim

/-- asking for the wrong type throws, and does not disturb the next call -/
example : ∃ src s s1 s2, openFile deckLua [1] deckSt = .ok src s ∧ getValue deckLua src .bool cfl s = .throw s1 ∧
    getValue deckLua src .float cfl s1 = .ok (some (.num 5)) s2 := by
  obtain ⟨-, -, src, s, e, ag, hi⟩ | ⟨hno, -⟩ := openFile_result deckLua (by decide) [1] (s0 := deckSt) ⟨rfl, rfl⟩ (m := deckMem)
    (rs := [.int 1]) rfl (by decide)
  rotate_left
  · refine absurd ⟨⟨0, rfl⟩, ?_⟩ hno
    have : valueAt deckMem [hydro, mesh] = .table 1 := rfl
    rw [this]; simp
  have htab : Tables deckMem opened := opened_tables deckMem (a := 0) rfl (a' := 1) rfl
  have g1 : src.get (deckEnv deckLua deckMem (fun _ c => c)) .bool cfl = .throws "exception" :=
    (get_deck deckLua deckMem _ ag htab .bool cfl).trans rfl
  have g2 : src.get (deckEnv deckLua deckMem (fun _ c => c)) .float cfl = .ok (some (.num 5)) :=
    (get_deck deckLua deckMem _ ag htab .float cfl).trans rfl
  have h1 := C100_refines deckLua (by decide) (fun _ c => c) ag htab .bool (by decide) cfl hi
  rw [g1] at h1
  obtain ⟨s1, e1, i1⟩ := h1
  have h2 := C100_refines deckLua (by decide) (fun _ c => c) ag htab .float (by decide) cfl i1
  rw [g2] at h2
  obtain ⟨s2, e2, -⟩ := h2
  exact ⟨src, s, s1, s2, e, e1, e2⟩

/-- **C100** From the file to the program: an engine whose Lua source was opened from a file with
tables `hydro` and `hydro.mesh` gives, after `resolve_inputs()` returns, for every standard key
registered as a target the value at its documented place in the file if there is one, and the
hard-coded default if there is none. -/
theorem C100_resolve (L : Lua F) (hL : 21 ≤ L.maxStack) (file : Bytes) {s0 : St F} (h0 : Fresh s0) {m : Mem F}
    {rs : List (Val F)} (hr : L.script s0.mem (cstr file) = .results m rs) (hn : rs.length < 20)
    {a a' : Nat} (ha : valueAt m [hydro] = .table a) (hm : valueAt m [hydro, mesh] = .table a')
    {row : List Char × List (List Char)} (hrow : row ∈ documented) {src : Source F} {s : St F}
    (ho : openFile L file s0 = .ok src s) (moved : Ty → CVal F → CVal F) {tys : List Ty} (hnd : tys.Nodup)
    {e e' : Engine Bytes Ty (Result F) (fun _ => CVal F)} (hl : e.lua = some src) {ok : Bool}
    (hres : InputEngine.resolveInputs (deckEnv L m moved) tys e = (e', .ok ok)) {t : Ty} (ht : t ∈ tys)
    (hk : name row.1 ∈ (e.st t).targets) :
    (∀ c, Widths t → Repr L m t (valueAt m (row.2.map name)) c → valueAt m (row.2.map name) ≠ .nil →
      InputEngine.getValue t (name row.1) e' = .ok c) ∧
    (valueAt m (row.2.map name) = .nil → ∀ d, e.hc = true → e.hcData t (name row.1) = some d →
      InputEngine.getValue t (name row.1) e' = .ok d) := by
  have htab := opened_tables m ha hm
  have hf := find_opened m _ _ (documented_path row hrow) htab
  obtain ⟨-, -, src', s', e1, ag, -⟩ | ⟨-, s', e1⟩ := openFile_result L hL file h0 hr hn
  rotate_left
  · rw [e1] at ho; cases ho
  rw [e1] at ho
  cases ho
  obtain ⟨p1, p2, -⟩ := InputEngine.C50_priority (deckEnv L m moved) hnd hres ht rfl hk
  have hg := get_deck L m moved ag htab t (name row.1)
  rw [hf] at hg
  refine ⟨fun c hw hrep hne => p1 c ⟨src, hl, ?_⟩, fun hnil => p2 (.inr ⟨src, hl, ?_⟩)⟩
  · rw [hg]
    dsimp only
    rw [if_pos (by cases hv : valueAt m (row.2.map name) <;> simp_all [present]), read_repr L m t _ c hw hrep]
    rfl
  · rw [hg, hnil]; rfl

/-- an engine that reads the example file, with `CFL` and `final_time` as targets and a default for
the latter -/
def deckEngine (src : Source Int) : Engine Bytes Ty (Result Int) (fun _ => CVal Int) :=
  InputEngine.registerTarget .float cfl (InputEngine.registerTarget .float (name ['f', 'i', 'n', 'a', 'l', '_', 't', 'i', 'm', 'e'])
    { (InputEngine.fresh : Engine Bytes Ty (Result Int) (fun _ => CVal Int)) with
      lua := some src, hc := true, hcData := fun _ _ => some (.num 9) })

theorem deckEngine_targets (src : Source Int) (k : Bytes) : k ∈ ((deckEngine src).st .float).targets ↔
    k = cfl ∨ k = name ['f', 'i', 'n', 'a', 'l', '_', 't', 'i', 'm', 'e'] := by
  simp [deckEngine, InputEngine.registerTarget, InputEngine.fresh]

/-- resolving gives `CFL` from the file and `final_time` from the default -/
example : ∃ src s e' ok, openFile deckLua [1] deckSt = .ok src s ∧
    InputEngine.resolveInputs (deckEnv deckLua deckMem (fun _ c => c)) [.float] (deckEngine src) = (e', .ok ok) ∧
    InputEngine.getValue .float cfl e' = .ok (.num 5) ∧
    InputEngine.getValue .float (name ['f', 'i', 'n', 'a', 'l', '_', 't', 'i', 'm', 'e']) e' = .ok (.num 9) := by
  obtain ⟨-, -, src, s, e, ag, -⟩ | ⟨hno, -⟩ := openFile_result deckLua (by decide) [1] (s0 := deckSt) ⟨rfl, rfl⟩ (m := deckMem)
    (rs := [.int 1]) rfl (by decide)
  rotate_left
  · refine absurd ⟨⟨0, rfl⟩, ?_⟩ hno
    have : valueAt deckMem [hydro, mesh] = .table 1 := rfl
    rw [this]; simp
  have htab : Tables deckMem opened := opened_tables deckMem (a := 0) rfl (a' := 1) rfl
  have g1 : src.get (deckEnv deckLua deckMem (fun _ c => c)) .float cfl = .ok (some (.num 5)) :=
    (get_deck deckLua deckMem _ ag htab .float cfl).trans rfl
  have g2 : src.get (deckEnv deckLua deckMem (fun _ c => c)) .float (name ['f', 'i', 'n', 'a', 'l', '_', 't', 'i', 'm', 'e']) =
    .ok none := (get_deck deckLua deckMem _ ag htab .float _).trans rfl
  obtain ⟨e', ok, hres⟩ : ∃ e' ok, InputEngine.resolveInputs (deckEnv deckLua deckMem (fun _ c => c)) [.float] (deckEngine src) =
      (e', .ok ok) := by
    refine InputEngine.resolveInputs_returns (deckEnv deckLua deckMem (fun _ c => c)) (by simp)
      (org := fun _ k => if k = cfl then .lua (.num 5) else .hard (.num 9)) ?_
    intro t ht k hk
    obtain rfl : t = .float := by simpa using ht
    rw [deckEngine_targets] at hk
    rcases hk with rfl | rfl
    · rw [InputEngine.origin_lua ⟨src, rfl, g1⟩]; rfl
    · rw [InputEngine.origin_silent (.inr ⟨src, rfl, g2⟩)]; rfl
  obtain ⟨c1, -⟩ := C100_resolve deckLua (by decide) [1] (s0 := deckSt) ⟨rfl, rfl⟩ (m := deckMem) (rs := [.int 1]) rfl (by decide)
    (a := 0) (a' := 1) rfl rfl (row := (['C', 'F', 'L'], [['h', 'y', 'd', 'r', 'o'], ['C', 'F', 'L']])) (by decide) e (fun _ c => c)
    (tys := [.float]) (by simp) (e := deckEngine src) rfl hres (t := .float) (by simp) (by rw [deckEngine_targets]; exact .inl rfl)
  obtain ⟨-, c2⟩ := C100_resolve deckLua (by decide) [1] (s0 := deckSt) ⟨rfl, rfl⟩ (m := deckMem) (rs := [.int 1]) rfl (by decide)
    (a := 0) (a' := 1) rfl rfl (row := (['f', 'i', 'n', 'a', 'l', '_', 't', 'i', 'm', 'e'],
      [['h', 'y', 'd', 'r', 'o'], ['f', 'i', 'n', 'a', 'l', '_', 't', 'i', 'm', 'e']])) (by decide) e (fun _ c => c)
    (tys := [.float]) (by simp) (e := deckEngine src) rfl hres (t := .float) (by simp) (by rw [deckEngine_targets]; exact .inr rfl)
  refine ⟨src, s, e', ok, e, hres, c1 (.num 5) trivial ⟨.inr 5, rfl, rfl⟩ ?_, c2 rfl (.num 9) rfl rfl⟩
  have : valueAt deckMem ([['h', 'y', 'd', 'r', 'o'], ['C', 'F', 'L']].map name) = .num 5 := rfl
  rw [this]; simp

end Verif.Deck
