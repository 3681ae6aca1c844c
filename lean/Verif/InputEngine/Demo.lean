import Verif.InputEngine.Lemmas

/-!
Concrete programs, for the examples beside the theorems about inputs and for the counterexamples.
-/

namespace Verif.InputEngine

/-- one value type (numbers), tables that hold the number 0 (nothing) or another one -/
def demo (isFun : Bool) (moved : Nat → Nat) : Env Nat Unit Nat (fun _ => Nat) where
  isFun := fun _ => isFun
  moved := fun _ => moved
  as := fun _ l => .ok l
  index := fun l _ => .ok (if l = 0 then none else some l)

/-- a Lua source that maps every key below 10 to one table -/
def demoLua (table : Nat) : LuaSource Nat Nat where
  tableMap := fun k => if k < 10 then some 0 else none
  luaKey := fun _ => none
  tables := fun _ => some table

/-- as `demo`, but the tables hold an entry for key 3 only -/
def demo3 (isFun : Bool) : Env Nat Unit Nat (fun _ => Nat) where
  isFun := fun _ => isFun
  moved := fun _ => id
  as := fun _ l => .ok l
  index := fun l k => .ok (if k = 3 then some l else none)

/-- two targets: 3, which the Lua source has (as 7) and which has a default (5), and 4, which has
only a default (6) -/
def twoTargets : Engine Nat Unit Nat (fun _ => Nat) :=
  registerTarget () 4 (registerTarget () 3 (registerLuaSource (demoLua 7) (registerHardCodedSource
    (setHardCoded () [(3, 5), (4, 6)] fresh))))

theorem twoTargets_targets : (twoTargets.st ()).targets = {3, 4} := by
  simp [twoTargets, registerTarget, registerLuaSource, registerHardCodedSource, setHardCoded, fresh]
  decide

theorem twoTargets_resolve (isFun : Bool) : ∃ e', resolveInputs (demo3 isFun) [()] twoTargets = (e', .ok true) := by
  have hs : ({3, 4} : Finset Nat).sort (· ≤ ·) = [3, 4] := (List.toFinset_sort (r := (· ≤ ·)) (l := [3, 4]) (by decide)).2 (by decide)
  have ht := twoTargets_targets
  simp [resolveInputs, resolveTypes, resolveType, Engine.slot, ht, hs, resolveLoop, lookup]
  cases isFun <;> simp [twoTargets, registerTarget, registerHardCodedSource, setHardCoded, registerLuaSource, demoLua,
    LuaSource.get, slice, demo3, fresh]

theorem twoTargets_lua (isFun : Bool) (k : Nat) (hk : k < 10) :
    (demoLua 7).get (demo3 isFun) () k = .ok (if k = 3 then some 7 else none) := by
  cases isFun <;> by_cases h : k = 3 <;> simp [LuaSource.get, slice, demo3, demoLua, hk, h]

/-- the same program with a third target, 5, that no source has -/
def threeTargets : Engine Nat Unit Nat (fun _ => Nat) := registerTarget () 5 twoTargets

theorem threeTargets_targets : (threeTargets.st ()).targets = {3, 4, 5} := by
  simp [threeTargets, registerTarget, twoTargets_targets]
  decide

theorem threeTargets_resolve (isFun : Bool) : ∃ e', resolveInputs (demo3 isFun) [()] threeTargets = (e', .ok false) := by
  have hs : ({3, 4, 5} : Finset Nat).sort (· ≤ ·) = [3, 4, 5] := (List.toFinset_sort (r := (· ≤ ·)) (l := [3, 4, 5]) (by decide)).2 (by decide)
  have ht := threeTargets_targets
  simp [resolveInputs, resolveTypes, resolveType, Engine.slot, ht, hs, resolveLoop, lookup]
  cases isFun <;> simp [threeTargets, twoTargets, registerTarget, registerHardCodedSource, setHardCoded, registerLuaSource, demoLua,
    LuaSource.get, slice, demo3, fresh]

end Verif.InputEngine
