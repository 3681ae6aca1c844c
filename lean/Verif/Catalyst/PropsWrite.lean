import Verif.Catalyst.WriteModel

/-! # C152: which files a grid is written to -/

namespace Verif.Catalyst

variable {G : Type}

/-- the file of piece `i` of the grid written as `f` -/
abbrev part (f : FName) (i : Nat) : FName := f ++ '_' :: (Int.repr i).toList ++ ".vtu".toList

/-- The files of the processes of a run, in some order: those of each of `n` processes are written, each file as a
whole, in any order and in between those of the other processes. -/
def AnyOrder (n : Nat) (each : Nat → List (FileWrite G)) (ws : List (FileWrite G)) : Prop :=
  List.Perm ws ((List.range n).flatMap each)

theorem stem_pvtu (f : FName) : stem (f ++ ".pvtu".toList) = f := by
  have : ∀ l : List Char, (([ 'u', 't', 'v', 'p', '.'] ++ l).dropWhile (· ≠ '.')).drop 1 = l := by
    intro l; simp [List.dropWhile]
  rw [stem, List.reverse_append]
  have h2 : ".pvtu".toList.reverse = ['u', 't', 'v', 'p', '.'] := by decide
  rw [h2, this, List.reverse_reverse]

theorem pieceName_pvtu (f : FName) (i : Nat) : pieceName (f ++ ".pvtu".toList) i = part f i := by
  rw [pieceName, stem_pvtu]

theorem part_inj {f : FName} {i j : Nat} (h : part f i = part f j) : i = j := by
  have h1 := List.append_cancel_right h
  have h2 := List.append_cancel_left h1
  have h3 := (List.cons.inj h2).2
  exact_mod_cast Int.repr_injective (String.toList_injective h3)

theorem part_ne {f : FName} {i : Nat} : part f i ≠ f ++ ".pvtu".toList := by
  intro h
  rw [part, List.append_assoc] at h
  have h2 := congrArg List.reverse (List.append_cancel_left h)
  simp [show ".vtu".toList = ['.', 'v', 't', 'u'] by decide,
    show ".pvtu".toList = ['.', 'p', 'v', 't', 'u'] by decide] at h2

theorem puts_other (d : Disk G) (ws : List (FileWrite G)) (n : FName) (h : ∀ w ∈ ws, w.1 ≠ n) :
    d.puts ws n = d n := by
  induction ws generalizing d with
  | nil => rfl
  | cons w ws ih =>
    rw [Disk.puts, List.foldl_cons]
    rw [show List.foldl Disk.put (d.put w) ws = (d.put w).puts ws from rfl,
      ih _ (fun v hv => h v (List.mem_cons_of_mem _ hv)), Disk.put, if_neg]
    intro e
    exact h w List.mem_cons_self e.symm

theorem puts_some (d : Disk G) (ws : List (FileWrite G)) (n : FName) (h : ∃ w ∈ ws, w.1 = n) :
    ∃ w ∈ ws, w.1 = n ∧ d.puts ws n = some w.2 := by
  induction ws generalizing d with
  | nil => obtain ⟨w, hw, _⟩ := h; cases hw
  | cons w ws ih =>
    have hd : d.puts (w :: ws) n = (d.put w).puts ws n := rfl
    rw [hd]
    by_cases ht : ∃ v ∈ ws, v.1 = n
    · obtain ⟨v, hv, h1, h2⟩ := ih (d.put w) ht
      exact ⟨v, List.mem_cons_of_mem _ hv, h1, h2⟩
    · have hw : w.1 = n := by
        obtain ⟨v, hv, e⟩ := h
        rcases List.mem_cons.mp hv with h1 | h1
        · exact h1 ▸ e
        · exact absurd ⟨v, h1, e⟩ ht
      refine ⟨w, List.mem_cons_self, hw, ?_⟩
      rw [puts_other _ _ _ (fun v hv e => ht ⟨v, hv, e⟩), Disk.put, if_pos hw.symm]

theorem fromTo_one (r : Int) : fromTo r r = [r] := by
  have : (r + 1 - r).toNat = 1 := by omega
  simp [fromTo, this, List.range_succ]

theorem fromTo_all (f : FName) (n : Nat) :
    (fromTo 0 ((n : Int) - 1)).map (pieceName (f ++ ".pvtu".toList)) = (List.range n).map (part f) := by
  have : ((n : Int) - 1 + 1 - 0).toNat = n := by omega
  rw [fromTo, this, List.map_map]
  apply List.map_congr_left
  intro k _
  rw [← pieceName_pvtu]
  simp

/-- what process `r` of `n` writes -/
theorem writes_mem {f : FName} {g : G} {n r : Nat} {w : FileWrite G} :
    w ∈ (Pieces.mk n r r).writes (f ++ ".pvtu".toList) g ↔
      w = (part f r, .grid g) ∨ (r = 0 ∧ w = (f ++ ".pvtu".toList, .summary ((List.range n).map (part f)))) := by
  rw [Pieces.writes]
  simp only [fromTo_one, List.map_cons, List.map_nil, fromTo_all]
  rw [List.mem_append, List.mem_singleton, pieceName_pvtu]
  by_cases h : r = 0
  · simp [h]
  · simp [h]

/-- the files after `n` processes have each written their piece -/
theorem parts_disk (n : Nat) (hn : 0 < n) (f : FName) (grids : Nat → G) (d : Disk G) (ws : List (FileWrite G))
    (h : AnyOrder n (fun r => (Pieces.mk n r r).writes (f ++ ".pvtu".toList) (grids r)) ws) :
    d.puts ws (f ++ ".pvtu".toList) = some (.summary ((List.range n).map (part f))) ∧
    (∀ r < n, d.puts ws (part f r) = some (.grid (grids r))) ∧
    (∀ m, m ≠ f ++ ".pvtu".toList → (∀ r < n, m ≠ part f r) → d.puts ws m = d m) := by
  have key : ∀ w, w ∈ ws ↔ (∃ r < n, w = (part f r, .grid (grids r))) ∨
      w = (f ++ ".pvtu".toList, .summary ((List.range n).map (part f))) := by
    intro w
    rw [h.mem_iff, List.mem_flatMap]
    constructor
    · rintro ⟨r, hr, hw⟩
      rcases writes_mem.mp hw with e | ⟨_, e⟩
      · exact .inl ⟨r, List.mem_range.mp hr, e⟩
      · exact .inr e
    · rintro (⟨r, hr, e⟩ | e)
      · exact ⟨r, List.mem_range.mpr hr, writes_mem.mpr (.inl e)⟩
      · exact ⟨0, List.mem_range.mpr hn, writes_mem.mpr (.inr ⟨rfl, e⟩)⟩
  refine ⟨?_, ?_, ?_⟩
  · obtain ⟨w, hw, h1, h2⟩ := puts_some d ws (f ++ ".pvtu".toList) ⟨_, (key _).mpr (.inr rfl), rfl⟩
    rcases (key w).mp hw with ⟨r, _, e⟩ | e
    · rw [e] at h1
      exact absurd h1 part_ne
    · rw [h2, e]
  · intro r hr
    obtain ⟨w, hw, h1, h2⟩ := puts_some d ws (part f r) ⟨_, (key _).mpr (.inl ⟨r, hr, rfl⟩), rfl⟩
    rcases (key w).mp hw with ⟨s, _, e⟩ | e
    · rw [e] at h1 h2
      rw [h2, part_inj h1]
    · rw [e] at h1
      exact absurd h1.symm part_ne
  · intro m hm hp
    apply puts_other
    intro w hw e
    rcases (key w).mp hw with ⟨r, hr, e2⟩ | e2
    · exact hp r hr (by rw [← e, e2])
    · exact hm (by rw [← e, e2])

/-- the files after `n` processes have each written to the same file -/
theorem same_disk (n : Nat) (hn : 0 < n) (x : FName) (each : Nat → List (FileWrite G)) (grids : Nat → G)
    (d : Disk G) (ws : List (FileWrite G)) (he : ∀ r < n, (x, .grid (grids r)) ∈ each r ∧
      ∀ w ∈ each r, w.1 = x → w = (x, .grid (grids r))) (h : AnyOrder n each ws) :
    ∃ r < n, d.puts ws x = some (.grid (grids r)) := by
  have h0 : (x, VtkFile.grid (grids 0)) ∈ ws := by
    rw [h.mem_iff, List.mem_flatMap]
    exact ⟨0, List.mem_range.mpr hn, (he 0 hn).1⟩
  obtain ⟨w, hw, h1, h2⟩ := puts_some d ws x ⟨_, h0, rfl⟩
  rw [h.mem_iff, List.mem_flatMap] at hw
  obtain ⟨r, hr, hw⟩ := hw
  exact ⟨r, List.mem_range.mp hr, by rw [h2, (he r (List.mem_range.mp hr)).2 w hw h1]⟩

/-- **C152** (what holds) If each of `n` processes gives its number to `writeParts(n, r, r, f)`, then, whatever the
order in which they write, `f.pvtu` lists `f_0.vtu`, ..., `f_(n-1).vtu`, each of these has the grid of its
process, and no other file is changed; the same holds for `writeUnstructuredGrid` with more than one process. -/
theorem C152_parts (n : Nat) (hn : 0 < n) (f : FName) (grids : Nat → G) (d : Disk G) (ws : List (FileWrite G))
    (h : AnyOrder n (fun r => (GridOut.new.writeParts (grids r) n r r f).2) ws ∨
      1 < n ∧ AnyOrder n (fun r => writeUnstructuredGrid f (grids r) n r r) ws) :
    d.puts ws (f ++ ".pvtu".toList) = some (.summary ((List.range n).map (part f))) ∧
    (∀ r < n, d.puts ws (part f r) = some (.grid (grids r))) ∧
    (∀ m, m ≠ f ++ ".pvtu".toList → (∀ r < n, m ≠ part f r) → d.puts ws m = d m) := by
  apply parts_disk n hn f grids d ws
  rcases h with h | ⟨h1, h⟩
  · exact h
  · have e : (fun r : Nat => writeUnstructuredGrid f (grids r) n r r) =
        fun r : Nat => (Pieces.mk n r r).writes (f ++ ".pvtu".toList) (grids r) := by
      funext r
      rw [writeUnstructuredGrid, if_pos (by omega)]
    rw [e] at h
    exact h

/-- three processes, of which the last writes first -/
example : AnyOrder 3 (fun r => (GridOut.new.writeParts r 3 r r ['a']).2)
    [("a_2.vtu".toList, VtkFile.grid 2), ("a_0.vtu".toList, .grid 0), ("a_1.vtu".toList, .grid 1),
     ("a.pvtu".toList, .summary ["a_0.vtu".toList, "a_1.vtu".toList, "a_2.vtu".toList])] := by
  exact List.isPerm_iff.mp (by decide +kernel)

/-- **C152** (what does not hold) that the grids of all processes are kept when the output is serial: after
`setOutputSerial` all processes write to `f.vtu`, which then has the grid of one of them. -/
theorem C152_serial_fails (n : Nat) (hn : 0 < n) (f : FName) (grids : Nat → G) (d : Disk G) (ws : List (FileWrite G))
    (h : AnyOrder n (fun r => (GridOut.new.setOutputSerial.writeParts (grids r) n r r f).2) ws) :
    (∃ r < n, d.puts ws (f ++ ".vtu".toList) = some (.grid (grids r))) ∧
    ∀ m, m ≠ f ++ ".vtu".toList → d.puts ws m = d m := by
  refine ⟨same_disk n hn _ _ grids d ws ?_ h, ?_⟩
  · intro r _
    simp [GridOut.writeParts, GridOut.write, GridOut.setOutputSerial]
  · intro m hm
    apply puts_other
    intro w hw e
    rw [h.mem_iff, List.mem_flatMap] at hw
    obtain ⟨r, _, hw⟩ := hw
    simp only [GridOut.writeParts, GridOut.write, GridOut.setOutputSerial] at hw
    simp at hw
    exact hm (by rw [← e, hw]; rfl)

/-- two processes, in either order: the grid of the last is kept -/
example : AnyOrder 2 (fun r => (GridOut.new.setOutputSerial.writeParts r 2 r r ['a']).2)
      [("a.vtu".toList, VtkFile.grid 1), ("a.vtu".toList, .grid 0)] ∧
    Disk.puts (fun _ => none) [("a.vtu".toList, VtkFile.grid 1), ("a.vtu".toList, .grid 0)] "a.vtu".toList = some (.grid 0) ∧
    Disk.puts (fun _ => none) [("a.vtu".toList, VtkFile.grid 0), ("a.vtu".toList, .grid 1)] "a.vtu".toList = some (.grid 1) :=
  ⟨List.isPerm_iff.mp (by decide +kernel), by decide +kernel, by decide +kernel⟩

/-- **C152** (what does not hold) that `write(f, 1)` writes the grids of all processes: unless `writeParts` came
before, all of them write to `f_0.vtu`, also if the object was made with the number of the process, and
`f.pvtu` lists this one file. -/
theorem C152_write_fails (n : Nat) (hn : 0 < n) (f : FName) (grids : Nat → G) (d : Disk G) (ws : List (FileWrite G))
    (h : AnyOrder n (fun r => GridOut.new.write (grids r) f 1) ws) :
    (∃ r < n, d.puts ws (part f 0) = some (.grid (grids r))) ∧
    d.puts ws (f ++ ".pvtu".toList) = some (.summary [part f 0]) ∧
    ∀ m, m ≠ f ++ ".pvtu".toList → m ≠ part f 0 → d.puts ws m = d m := by
  have key : ∀ (r : Nat) (w : FileWrite G), w ∈ GridOut.new.write (grids r) f 1 ↔
      w = (part f 0, .grid (grids r)) ∨ w = (f ++ ".pvtu".toList, .summary [part f 0]) := by
    intro r w
    have := writes_mem (f := f) (g := grids r) (n := 1) (r := 0) (w := w)
    simpa [GridOut.write, GridOut.new, Pieces.new] using this
  refine ⟨same_disk n hn _ _ grids d ws ?_ h, ?_, ?_⟩
  · intro r _
    refine ⟨(key r _).mpr (.inl rfl), fun w hw e => ?_⟩
    rcases (key r w).mp hw with h1 | h1
    · exact h1
    · rw [h1] at e
      exact absurd e.symm part_ne
  · have h0 : (f ++ ".pvtu".toList, VtkFile.summary [part f 0]) ∈ ws := by
      rw [h.mem_iff, List.mem_flatMap]
      exact ⟨0, List.mem_range.mpr hn, (key 0 _).mpr (.inr rfl)⟩
    obtain ⟨w, hw, h1, h2⟩ := puts_some d ws _ ⟨_, h0, rfl⟩
    rw [h.mem_iff, List.mem_flatMap] at hw
    obtain ⟨r, _, hw⟩ := hw
    rcases (key r w).mp hw with h3 | h3
    · rw [h3] at h1
      exact absurd h1 part_ne
    · rw [h2, h3]
  · intro m hm hp
    apply puts_other
    intro w hw e
    rw [h.mem_iff, List.mem_flatMap] at hw
    obtain ⟨r, _, hw⟩ := hw
    rcases (key r w).mp hw with h3 | h3
    · exact hp (by rw [← e, h3])
    · exact hm (by rw [← e, h3])

example : AnyOrder 2 (fun r => GridOut.new.write r ['a'] 1)
    [("a_0.vtu".toList, VtkFile.grid 1), ("a_0.vtu".toList, .grid 0), ("a.pvtu".toList, .summary ["a_0.vtu".toList]),
     ("a.pvtu".toList, .summary ["a_0.vtu".toList])] := List.isPerm_iff.mp (by decide +kernel)

/-- **C152** (what holds) After `writeParts(n, r, r, f)` by each of `n` processes `write(g, 1)` writes the same parts
of `g`; `setOutputSerial` does not change that. -/
theorem C152_again (n : Nat) (hn : 0 < n) (f f' : FName) (grids grids' : Nat → G) (d : Disk G)
    (ws : List (FileWrite G)) (h : AnyOrder n (fun r =>
      (GridOut.new.writeParts (grids r) n r r f).1.setOutputSerial.write (grids' r) f' 1) ws) :
    d.puts ws (f' ++ ".pvtu".toList) = some (.summary ((List.range n).map (part f'))) ∧
    (∀ r < n, d.puts ws (part f' r) = some (.grid (grids' r))) ∧
    (∀ m, m ≠ f' ++ ".pvtu".toList → (∀ r < n, m ≠ part f' r) → d.puts ws m = d m) :=
  parts_disk n hn f' grids' d ws h

example : AnyOrder 2 (fun r => (GridOut.new.writeParts r 2 r r ['a']).1.setOutputSerial.write (r + 7) ['b'] 1)
    [("b_1.vtu".toList, VtkFile.grid 8), ("b_0.vtu".toList, .grid 7),
     ("b.pvtu".toList, .summary ["b_0.vtu".toList, "b_1.vtu".toList])] := List.isPerm_iff.mp (by decide +kernel)

/-- **C152** (what holds) `write(f)` writes the one file `f.vtu`, whatever was set before, and so does
`write(f, p)` for every `p` other than 1; so does `writeUnstructuredGrid` with at most one piece, whatever the
start and end pieces are, and `writeParts` after `setOutputSerial`. -/
theorem C152_one_file (o : GridOut) (g : G) (f : FName) (n s e p : Int) :
    (p ≠ 1 → o.write g f p = [(f ++ ".vtu".toList, .grid g)]) ∧
    o.write g f = [(f ++ ".vtu".toList, .grid g)] ∧
    (n ≤ 1 → writeUnstructuredGrid f g n s e = [(f ++ ".vtu".toList, .grid g)]) ∧
    (o.setOutputSerial.writeParts g n s e f).2 = [(f ++ ".vtu".toList, .grid g)] := by
  refine ⟨fun h => ?_, ?_, fun h => ?_, ?_⟩
  · rw [GridOut.write, if_neg h]
  · rw [GridOut.write, if_neg (by decide)]
  · rw [writeUnstructuredGrid, if_neg (by omega)]
  · simp [GridOut.writeParts, GridOut.write, GridOut.setOutputSerial]

/-- **C152** (what holds) A process that gives the pieces `s` to `e` to `writeParts` writes a file for each of them,
and `f.pvtu` exactly if the first piece is among them. -/
theorem C152_pieces (g : G) (f : FName) (n : Int) (s k : Nat) :
    ((GridOut.new.writeParts g n s (s + k) f).2).map Prod.fst =
      (List.range (k + 1)).map (fun i => part f (s + i)) ++ if s = 0 then [f ++ ".pvtu".toList] else [] := by
  have e : (GridOut.new.writeParts g n s (s + k) f).2 = (Pieces.mk n s (s + k)).writes (f ++ ".pvtu".toList) g := rfl
  rw [e, Pieces.writes, List.map_append, List.map_map, fromTo, List.map_map]
  have h1 : ((s : Int) + k + 1 - s).toNat = k + 1 := by omega
  simp only [h1]
  congr 1
  · apply List.map_congr_left
    intro i _
    have := pieceName_pvtu f (s + i)
    simpa using this
  · by_cases h : s = 0
    · simp [h]
    · simp [h]

example : ((GridOut.new.writeParts () 5 2 4 ['a']).2).map Prod.fst = ["a_2.vtu".toList, "a_3.vtu".toList, "a_4.vtu".toList] :=
  C152_pieces () ['a'] 5 2 2

/-- **C152** (what does not hold) that a single process writes the same files with either function: `writeParts(1, 0, 0, f)` writes `f.pvtu` and `f_0.vtu`, and `writeUnstructuredGrid` `f.vtu`. -/
theorem C152_single_fails (g : G) (f : FName) :
    ((GridOut.new.writeParts g 1 0 0 f).2).map Prod.fst = [part f 0, f ++ ".pvtu".toList] ∧
    (writeUnstructuredGrid f g 1 0 0).map Prod.fst = [f ++ ".vtu".toList] := by
  constructor
  · have h := pieceName_pvtu f 0
    have e : (GridOut.new.writeParts g 1 0 0 f).2 = (Pieces.mk 1 0 0).writes (f ++ ".pvtu".toList) g := rfl
    rw [e, Pieces.writes]
    simp only [fromTo_one, if_true, List.map_cons, List.map_nil, List.cons_append, List.nil_append]
    rw [← h]
    rfl
  · rfl

end Verif.Catalyst
