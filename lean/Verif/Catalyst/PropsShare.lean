import Verif.Catalyst.ShareLemmas

/-!
# The memory of the arrays of a grid: the properties
-/

namespace Verif.Catalyst
open Verif Verif.Strings.Spec

/-- **C151** (what holds) Data added without copying are seen in the grid as they are in the memory of the caller at the time of the look,
whatever is written there and added to the grid, before or after, under other names – as long as no other array
is made of the same memory in this way. -/
theorem C151_shared_partial {T : Type} (mem : List (Block T)) (pre post : List (Use T)) (name : Str) (n c : Nat) (type : Int)
    (p : Nat) (b0 : Block T) (hb : mem[p]? = some b0) (hl : b0.live = true) (hm : n * c ≤ b0.vals.length)
    (hpre : ∀ u ∈ pre, ¬ u.hands p) (hpost : ∀ u ∈ post, ¬ u.hands p ∧ u.puts ≠ some (kindOf type, name)) (w : GridMem T)
    (h : (GridMem.new mem).uses (pre ++ .share name n c type p :: post) = .ok w) :
    ∃ b, w.mem[p]? = some b ∧ b.live = true ∧
      w.read (kindOf type) name = .ok (some (max 1 c, b.vals.take (n * c))) := by
  obtain ⟨w1, h1, h2⟩ := uses_append h
  have hw1 := (WF.new mem).uses h1
  have hs1 := (Safe.new mem p).uses (WF.new mem) hpre h1
  have ht1 := (show There (GridMem.new mem) p (n * c) from ⟨b0, hb, hl, hm⟩).uses (WF.new mem) (Safe.new mem p) hpre h1
  rw [GridMem.uses, loopM] at h2
  cases h3 : w1.use (.share name n c type p) with
  | ok w2 =>
    rw [h3] at h2
    rw [GridMem.use, addVectorShared] at h3
    split at h3
    · cases h3
    · obtain ⟨b, g1, g2, _, g4⟩ := ((sees_added hw1 hs1 ht1 rfl h3).uses hpost h2).read
      exact ⟨b, g1, g2, g4⟩
  | _ => rw [h3] at h2; cases h2

/-- **C151** A value added as field data is seen in the grid as it is in the memory of the caller at the time of the look, whatever is
written there and added to the grid, before or after, under other names, as long as no array with `addVectorData`
is made of the same memory. -/
theorem C151_field {T : Type} (mem : List (Block T)) (pre post : List (Use T)) (name : Str)
    (p : Nat) (b0 : Block T) (hb : mem[p]? = some b0) (hl : b0.live = true) (hm : 1 ≤ b0.vals.length)
    (hpre : ∀ u ∈ pre, ¬ u.hands p) (hpost : ∀ u ∈ post, ¬ u.hands p ∧ u.puts ≠ some (.field, name)) (w : GridMem T)
    (h : (GridMem.new mem).uses (pre ++ .field name p :: post) = .ok w) :
    ∃ b v, w.mem[p]? = some b ∧ b.live = true ∧ b.vals[0]? = some v ∧ w.read .field name = .ok (some (1, [v])) := by
  obtain ⟨w1, h1, h2⟩ := uses_append h
  have hw1 := (WF.new mem).uses h1
  have hs1 := (Safe.new mem p).uses (WF.new mem) hpre h1
  have ht1 := (show There (GridMem.new mem) p 1 from ⟨b0, hb, hl, hm⟩).uses (WF.new mem) (Safe.new mem p) hpre h1
  rw [GridMem.uses, loopM] at h2
  cases h3 : w1.use (.field name p) with
  | ok w2 =>
    rw [h3] at h2
    obtain ⟨b, g1, g2, g3, g4⟩ := ((sees_added hw1 hs1 ht1 rfl h3).uses hpost h2).read
    cases hv : b.vals with
    | nil => rw [hv] at g3; simp at g3
    | cons v vs =>
      refine ⟨b, v, g1, g2, by rw [hv]; rfl, ?_⟩
      rw [g4, hv]
      rfl
  | _ => rw [h3] at h2; cases h2

/-- the time `t`, changed after it has been added, and a copied array -/
example : ∃ w, (GridMem.new [⟨[1], true, false⟩]).uses
      ([.copy ['t'] 1 [7, 8] 0] ++ .field ['t'] 0 :: [.write 0 0 5, .copy ['p'] 1 [9] 0]) = .ok w ∧
    w.read .field ['t'] = .ok (some (1, [5])) ∧ w.read .point ['t'] = .ok (some (1, [7, 8])) :=
  ⟨_, rfl, by decide, by decide⟩

/-- two points with two components, changed after they have been added -/
example : ∃ w, (GridMem.new [⟨[1, 2, 3, 4], true, true⟩]).uses
      ([.field ['t'] 0] ++ .share ['v'] 2 2 1 0 :: [.write 0 2 9]) = .ok w ∧
    w.read .cell ['v'] = .ok (some (2, [1, 2, 9, 4])) := ⟨_, rfl, by decide⟩

/-- **C151** (what holds) As long as nothing is added by the `addVectorData` that does not copy, the memory of the caller is the caller's:
the grid can be destroyed, and releases none of it. -/
theorem C151_kept_partial {T : Type} (mem : List (Block T)) (us : List (Use T)) (hu : ∀ u ∈ us, ∀ p, ¬ u.hands p) (w : GridMem T)
    (h : (GridMem.new mem).uses us = .ok w) :
    ∃ w', w.drop = .ok w' ∧ w'.mem = w.mem ∧ ∀ p : Nat, (w'.mem[p]?).map Block.live = (mem[p]?).map Block.live := by
  have hw := (WF.new mem).uses h
  obtain ⟨w', h1, h2⟩ := dropAll_runs (l := w.at' .point ++ w.at' .cell ++ w.at' .field) (w := { w with at' := fun _ => [] })
    (fun a ha => by
      simp only [List.mem_append] at ha
      rcases ha with (ha | ha) | ha <;> exact hw.there _ a ha)
    (fun a x hx => by rw [count_ids, hw.refs a x hx]; omega) (fun x hx => safe_stores hu h x hx)
  refine ⟨w', h1, h2, fun p => ?_⟩
  rw [h2]
  exact live_uses (WF.new mem) (Safe.new mem) hu h p

example : ∃ w w', (GridMem.new [⟨[1], true, false⟩, ⟨[2, 3], true, true⟩]).uses
      [.field ['t'] 0, .copy ['p'] 2 [2, 3] 0, .field ['t'] 1, .write 1 0 4] = .ok w ∧ w.drop = .ok w' ∧
    w'.mem = [⟨[1], true, false⟩, ⟨[4, 3], true, true⟩] := ⟨_, _, rfl, rfl, rfl⟩

/-- **C151** (what does not hold) Memory given to the `addVectorData` that does not copy is released by the grid, with `delete[]`: when the caller
releases it after the grid behaviour is undefined, and it is so when the grid is destroyed if the memory does not come from
`new[]`, as that of a `std::vector` or an array on the stack. -/
theorem C151_delete_fails {T : Type} (vals : List T) (heap : Bool) (name : Str) (n c : Nat) (type : Int) (hm : n * c < 2 ^ 31) :
    ∃ w, (GridMem.new [⟨vals, true, heap⟩]).uses [.share name n c type 0] = .ok w ∧
      w.drop >>= (fun w' => w'.free 0) = .ub ∧ (heap = false → w.drop = .ub) := by
  have h : ¬ n * c ≥ 2 ^ 31 := by omega
  simp only [GridMem.uses, loopM, GridMem.use, addVectorShared, if_neg h]
  cases heap <;> by_cases ht : type = 0 <;>
    simp [GridMem.add, GridMem.new, putArray, unregister, kindOf, ht, GridMem.drop, dropAll, deleteBlock, GridMem.free]

/-- the memory of a `std::vector` of three values -/
example : ∃ w, (GridMem.new [⟨[1, 2, 3], true, false⟩]).uses [.share ['p'] 3 1 0 0] = .ok w ∧ w.drop = .ub :=
  have ⟨w, h, _, h'⟩ := C151_delete_fails [1, 2, 3] false ['p'] 3 1 0 (by decide)
  ⟨w, h, h' rfl⟩

/-- **C151** (what does not hold) When the `addVectorData` that does not copy is called again with the same name and the same memory, as for
every step of a simulation, the array replaced releases the memory, and to look at the new one is undefined. -/
theorem C151_again_fails {T : Type} (vals : List T) (name : Str) (n c : Nat) (type : Int) (hm : n * c < 2 ^ 31) :
    ∃ w, (GridMem.new [⟨vals, true, true⟩]).uses [.share name n c type 0, .share name n c type 0] = .ok w ∧
      w.read (kindOf type) name = .ub := by
  have h : ¬ n * c ≥ 2 ^ 31 := by omega
  simp only [GridMem.uses, loopM, GridMem.use, addVectorShared, if_neg h]
  by_cases ht : type = 0 <;>
    simp [GridMem.add, GridMem.new, putArray, unregister, kindOf, ht, deleteBlock, GridMem.read, GridMem.name]

example : ∃ w, (GridMem.new [⟨[1, 2, 3], true, true⟩]).uses [.share ['p'] 3 1 0 0, .share ['p'] 3 1 0 0] = .ok w ∧
    w.read (kindOf 0) ['p'] = .ub := C151_again_fails [1, 2, 3] ['p'] 3 1 0 (by decide)

/-- **C151** When the grid is destroyed – if that is defined – all arrays made of the memory of the caller are destroyed, and no
array that has been copied is: one reference to it is left, for ever. -/
theorem C151_drop {T : Type} (mem : List (Block T)) (us : List (Use T)) (w w' : GridMem T)
    (h : (GridMem.new mem).uses us = .ok w) (hd : w.drop = .ok w') :
    ∀ x ∈ w'.arrs, x.refs = match x.store with | .own _ => 1 | .shared .. => 0 := by
  have hw := (WF.new mem).uses h
  have := (dropAll_ok hd (fun a x hx => by rw [count_ids]; exact hw.refs a x hx)).2
  intro x hx
  obtain ⟨a, ha, rfl⟩ := List.mem_iff_getElem.1 hx
  rw [this a _ (List.getElem?_eq_getElem ha)]
  cases w'.arrs[a].store <;> rfl

/-- **C151** (what does not hold) Copied data are never given back: after any number of steps that add an array under one name, and the end
of the grid, the arrays of all steps are still there. -/
theorem C151_leak_fails {T : Type} (mem : List (Block T)) (name : Str) (c : Nat) (type : Int) (steps : List (List T)) :
    ∃ w w', (GridMem.new mem).uses (steps.map fun vals => .copy name c vals type) = .ok w ∧ w.drop = .ok w' ∧
      w'.arrs.map (fun x => x.store) = steps.map Store.own ∧ ∀ x ∈ w'.arrs, x.refs = 1 := by
  obtain ⟨w, h1, h2⟩ := copies_run name c type steps (WF.new mem) (by simp [GridMem.new])
  have hu : ∀ u ∈ steps.map (fun vals => (Use.copy name c vals type : Use T)), ∀ p, ¬ u.hands p := by
    intro u hu p
    obtain ⟨v, _, rfl⟩ := List.mem_map.1 hu
    exact id
  obtain ⟨w', h3, _⟩ := C151_kept_partial mem _ hu w h1
  have hw := (WF.new mem).uses h1
  have hk := (dropAll_ok h3 (fun a x hx => by rw [count_ids]; exact hw.refs a x hx)).1
  have hst : w'.arrs.map (fun x => x.store) = steps.map Store.own := by
    have : w'.arrs.map (fun x => x.store) = w'.keys.map (fun q => q.2.2) := by
      rw [GridMem.keys, List.map_map]; rfl
    rw [this, hk]
    show List.map _ w.keys = _
    rw [h2]
    simp [GridMem.new, GridMem.keys]
  refine ⟨w, w', h1, h3, hst, fun x hx => ?_⟩
  rw [C151_drop mem _ w w' h1 h3 x hx]
  have : x.store ∈ steps.map Store.own := by rw [← hst]; exact List.mem_map_of_mem hx
  obtain ⟨v, _, e⟩ := List.mem_map.1 this
  rw [← e]

/-- two steps -/
example : ∃ w w', (GridMem.new []).uses [.copy ['p'] 1 [1, 2] 0, .copy ['p'] 1 [3, 4] 0] = .ok w ∧
    w.read .point ['p'] = .ok (some (1, [3, 4])) ∧ w.drop = .ok w' ∧
    w'.arrs = [⟨['p'], 1, .own [1, 2], 1⟩, ⟨['p'], 1, .own [3, 4], 1⟩] := ⟨_, _, rfl, rfl, rfl, rfl⟩

end Verif.Catalyst
