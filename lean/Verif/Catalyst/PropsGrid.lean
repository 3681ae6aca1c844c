import Verif.Catalyst.GridModel
import Mathlib.Tactic.Ring

/-!
# C80, C81: point grids and data arrays handed to the visualisation library
-/

namespace Verif.Catalyst
open Verif Verif.Strings.Spec

/-! ## Loops -/

theorem loopM_cons_ok {σ α : Type} {step : σ → α → Outcome σ} {x : α} {xs : List α} {s s' : σ} (h : step s x = .ok s') :
    loopM step (x :: xs) s = loopM step xs s' := by
  rw [loopM, h, Outcome.bind_ok]

theorem loopM_cons_ub {σ α : Type} {step : σ → α → Outcome σ} {x : α} {xs : List α} {s : σ} (h : step s x = .ub) :
    loopM step (x :: xs) s = .ub := by
  rw [loopM, h, Outcome.bind_ub]

theorem loopM_snoc {σ α : Type} (step : σ → α → Outcome σ) (xs : List α) (x : α) (s : σ) :
    loopM step (xs ++ [x]) s = loopM step xs s >>= fun s' => step s' x := by
  induction xs generalizing s with
  | nil =>
    simp only [List.nil_append, loopM, Outcome.bind_ok]
    cases step s x <;> rfl
  | cons y xs ih =>
    rw [List.cons_append, loopM, loopM]
    cases h : step s y with
    | ok s' => simp only [Outcome.bind_ok, ih]
    | _ => rfl

/-- a loop whose steps only ever succeed or are undefined, with one step always undefined -/
theorem loopM_ub {σ α : Type} {step : σ → α → Outcome σ} (h : ∀ s x, step s x = .ub ∨ ∃ s', step s x = .ok s')
    {xs : List α} {x : α} (hx : x ∈ xs) (hub : ∀ s, step s x = .ub) (s : σ) : loopM step xs s = .ub := by
  induction xs generalizing s with
  | nil => cases hx
  | cons y xs ih =>
    rcases h s y with e | ⟨s', e⟩
    · exact loopM_cons_ub e
    · rw [loopM_cons_ok e]
      rcases List.mem_cons.1 hx with rfl | hx
      · rw [hub s] at e; cases e
      · exact ih hx s'

theorem loopM_ub_or_ok {σ α : Type} {step : σ → α → Outcome σ} (h : ∀ s x, step s x = .ub ∨ ∃ s', step s x = .ok s')
    (xs : List α) (s : σ) : loopM step xs s = .ub ∨ ∃ s', loopM step xs s = .ok s' := by
  induction xs generalizing s with
  | nil => exact Or.inr ⟨s, rfl⟩
  | cons y xs ih =>
    rcases h s y with e | ⟨s', e⟩
    · exact Or.inl (loopM_cons_ub e)
    · rw [loopM_cons_ok e]; exact ih s'

/-! ## C80: points and cells -/

/-- what a reader of the grid sees: the points, and each cell with its type -/
def UGrid.seen {T : Type} (g : UGrid T) : Option (List (Option (Point T)) × List (List Nat × Int)) :=
  match g.gridPnts, g.gridTypes with
  | true, some ts => some (g.pnts, g.cells.zip ts)
  | _, _ => none

/-- every cell refers to points that exist and have been set, and has a type -/
def UGrid.wellFormed {T : Type} (g : UGrid T) : Prop :=
  (∀ c ∈ g.cells, ∀ i ∈ c, ∃ p, g.pnts[i]? = some (some p)) ∧ ∀ ts, g.gridTypes = some ts → ts.length = g.cells.length

/-- calls of the point-cloud part of the interface -/
inductive Call (T : Type) where
  | add (p : Point T)
  | push (cellType : Int)

/-- one such call -/
def UGrid.call {T : Type} (g : UGrid T) : Call T → Outcome (UGrid T)
  | .add p => g.addPoint [p.1, p.2.1, p.2.2]
  | .push ct => g.push ct

/-- such calls in turn -/
def UGrid.calls {T : Type} (g : UGrid T) (cs : List (Call T)) : Outcome (UGrid T) :=
  loopM UGrid.call cs g

/-- the points given to `add`, in order -/
def added {T : Type} : List (Call T) → List (Point T)
  | [] => []
  | .add p :: cs => p :: added cs
  | .push _ :: cs => added cs

/-- the state after points `ps` were added one by one -/
structure Cloud {T : Type} (g : UGrid T) (ps : List (Point T)) : Prop where
  pnts : g.pnts = ps.map some
  cells : g.cells = (List.range ps.length).map (fun i => [i])
  idx : g.idx = ps.length
  pr : 0 < g.pntsRefs
  cr : 0 < g.cellsRefs

theorem insertAt_length {P : Type} (l : List (Option P)) (p : P) : insertAt l l.length p = l ++ [some p] := by
  simp [insertAt]

theorem read3_triple {T : Type} (x y z : T) (r : List T) : read3 (x :: y :: z :: r) 0 = .ok (x, y, z) := by
  simp [read3]

theorem Cloud.add {T : Type} {g : UGrid T} {ps : List (Point T)} (h : Cloud g ps) (p : Point T) :
    ∃ g', g.addPoint [p.1, p.2.1, p.2.2] = .ok g' ∧ Cloud g' (ps ++ [p]) := by
  have hr : ¬ (g.pntsRefs = 0 ∨ g.cellsRefs = 0) := by have := h.pr; have := h.cr; omega
  rw [UGrid.addPoint, if_neg hr, read3_triple, Outcome.bind_ok]
  refine ⟨_, rfl, ?_, ?_, ?_, h.pr, h.cr⟩
  · dsimp only
    have hl : g.idx = g.pnts.length := by rw [h.idx, h.pnts, List.length_map]
    rw [hl, insertAt_length, h.pnts, List.map_append]
    rfl
  · dsimp only
    rw [h.cells, h.idx, List.length_append, List.length_singleton, List.range_succ, List.map_append]
    rfl
  · dsimp only
    rw [h.idx, List.length_append, List.length_singleton]

theorem Cloud.push {T : Type} {g : UGrid T} {ps : List (Point T)} (h : Cloud g ps) (ct : Int) :
    ∃ g', g.push ct = .ok g' ∧ Cloud g' ps ∧
      g'.seen = some (ps.map some, (List.range ps.length).map (fun i => ([i], ct))) := by
  have hr : ¬ (g.pntsRefs = 0 ∨ g.cellsRefs = 0) := by have := h.pr; have := h.cr; omega
  rw [UGrid.push, if_neg hr]
  refine ⟨_, rfl, ⟨h.pnts, h.cells, h.idx, ?_, ?_⟩, ?_⟩
  · have := h.pr; dsimp only; split <;> omega
  · have := h.cr; dsimp only; split <;> omega
  · simp only [UGrid.seen, h.pnts, h.cells, List.length_map, List.length_range]
    congr 2
    apply List.ext_getElem
    · simp
    · intro i h1 h2; simp

theorem cloud_calls {T : Type} (cs : List (Call T)) (g : UGrid T) (ps : List (Point T)) (h : Cloud g ps) :
    ∃ g', g.calls cs = .ok g' ∧ Cloud g' (ps ++ added cs) := by
  induction cs generalizing g ps with
  | nil => exact ⟨g, rfl, by simpa [added] using h⟩
  | cons c cs ih =>
    cases c with
    | add p =>
      obtain ⟨g1, e, h1⟩ := h.add p
      obtain ⟨g2, e2, h2⟩ := ih g1 _ h1
      exact ⟨g2, by rw [UGrid.calls, loopM_cons_ok (show g.call (.add p) = .ok g1 from e)]; exact e2, by simpa [added] using h2⟩
    | push ct =>
      obtain ⟨g1, e, h1, _⟩ := h.push ct
      obtain ⟨g2, e2, h2⟩ := ih g1 _ h1
      exact ⟨g2, by rw [UGrid.calls, loopM_cons_ok (show g.call (.push ct) = .ok g1 from e)]; exact e2, h2⟩

theorem cloud_new (T : Type) : Cloud (UGrid.new T) [] := ⟨rfl, rfl, rfl, Nat.one_pos, Nat.one_pos⟩

/-- **C80** A grid built point by point: after any number of points, handed over at the end
(and any number of times before), the reader sees exactly the points in the order added, and
for the i-th point one cell made of that point alone, of the type given last. -/
theorem C80_add_points {T : Type} (cs : List (Call T)) (ct : Int) :
    ∃ g, (UGrid.new T).calls (cs ++ [.push ct]) = .ok g ∧
      g.seen = some ((added cs).map some, (List.range (added cs).length).map (fun i => ([i], ct))) ∧
      g.wellFormed := by
  obtain ⟨g1, e1, h1⟩ := cloud_calls cs (UGrid.new T) [] (cloud_new T)
  rw [List.nil_append] at h1
  obtain ⟨g2, e2, h2, hs⟩ := h1.push ct
  refine ⟨g2, ?_, hs, ?_, ?_⟩
  · unfold UGrid.calls at e1 ⊢
    rw [loopM_snoc, e1]
    exact e2
  · intro c hc i hi
    rw [h2.cells] at hc
    obtain ⟨j, hj, rfl⟩ := List.mem_map.1 hc
    rw [List.mem_singleton] at hi
    subst hi
    have hj := List.mem_range.1 hj
    exact ⟨(added cs)[i], by rw [h2.pnts]; simp [hj]⟩
  · intro ts hts
    rw [UGrid.push] at e2
    split at e2
    · cases e2
    · cases e2
      dsimp only at hts ⊢
      cases hts
      simp

example : ∃ g, (UGrid.new Int).calls [.add (1, 2, 3), .push 1, .add (4, 5, 6), .push 2] = .ok g ∧
    g.seen = some ([some (1, 2, 3), some (4, 5, 6)], [([0], 2), ([1], 2)]) :=
  ⟨_, rfl, rfl⟩

/-- **C80 fails**: a point added after the grid was handed over shows up in the grid as a cell
without a type, until the next hand-over. -/
theorem C80_add_after_push_fails : ∃ g, (UGrid.new Int).calls [.push 1, .add (4, 5, 6)] = .ok g ∧
    g.pnts = [some (4, 5, 6)] ∧ g.cells = [[0]] ∧ g.gridTypes = some [] ∧ ¬ g.wellFormed := by
  refine ⟨_, rfl, rfl, rfl, rfl, fun h => ?_⟩
  have := h.2 [] rfl
  cases this

/-- reading `n` triples, each entry present -/
theorem read3i_ok {T : Type} (ps : List (Point T)) (i : Nat) (h : i < ps.length) (hm : 3 * ps.length ≤ 2 ^ 31) (rest : List T) :
    read3i ((ps.flatMap fun p => [p.1, p.2.1, p.2.2]) ++ rest) i = .ok ps[i] := by
  rw [read3i, if_neg (by omega)]
  induction ps generalizing i with
  | nil => simp at h
  | cons p ps ih =>
    cases i with
    | zero => simp [read3]
    | succ i =>
      have := ih i (by simpa using h) (by simp at hm; omega)
      simp only [read3, List.flatMap_cons, List.cons_append, List.nil_append, List.getElem_cons_succ] at this ⊢
      rw [show (i + 1) * 3 = i * 3 + 1 + 1 + 1 by ring, show i * 3 + 1 + 1 + 1 + 1 = (i * 3 + 1) + 1 + 1 + 1 by ring,
        show i * 3 + 1 + 1 + 1 + 2 = (i * 3 + 2) + 1 + 1 + 1 by ring]
      simpa only [List.getElem?_cons_succ] using this

/-- **C80** `insertNextPoints` appends all points of the array, in order, and changes nothing
else but the counter. -/
theorem C80_insert_points {T : Type} (g : UGrid T) (hg : 0 < g.pntsRefs) (ps : List (Point T)) (rest : List T)
    (hm : 3 * ps.length ≤ 2 ^ 31) :
    g.insertNextPoints ((ps.flatMap fun p => [p.1, p.2.1, p.2.2]) ++ rest) ps.length =
      .ok { g with pnts := g.pnts ++ ps.map some, numOfPoints := g.numOfPoints + ps.length } := by
  have key : ∀ k, k ≤ ps.length → loopM (fun (g : UGrid T) i =>
      read3i ((ps.flatMap fun p => [p.1, p.2.1, p.2.2]) ++ rest) i >>= fun p => g.insertNextPoint3 p.1 p.2.1 p.2.2)
      (List.range k) g =
      .ok { g with pnts := g.pnts ++ (ps.take k).map some, numOfPoints := g.numOfPoints + k } := by
    intro k
    induction k with
    | zero => intro _; simp [loopM]
    | succ k ih =>
      intro hk
      rw [List.range_succ, loopM_snoc, ih (by omega), Outcome.bind_ok, read3i_ok ps k (by omega) hm rest, Outcome.bind_ok, UGrid.insertNextPoint3]
      rw [if_neg (by dsimp only; omega)]
      dsimp only
      rw [List.take_add_one, List.getElem?_eq_getElem (show k < ps.length by omega), List.map_append,
        List.append_assoc, Nat.add_assoc]
      rfl
  have := key ps.length le_rfl
  rw [List.take_length] at this
  exact this

/-- two points, given with some more numbers behind them -/
example : ∃ g, (UGrid.new Int).insertNextPoints [1, 2, 3, 4, 5, 6, 99] 2 = .ok g ∧
    g.pnts = [some (1, 2, 3), some (4, 5, 6)] :=
  ⟨_, C80_insert_points (UGrid.new Int) (by decide) [(1, 2, 3), (4, 5, 6)] [99] (by decide), rfl⟩

/-- **C80** Reading stops being defined at the end of the array given. -/
theorem C80_insert_points_short {T : Type} (g : UGrid T) (data : List T) (n : Nat) (h : data.length < 3 * n) :
    g.insertNextPoints data n = .ub := by
  refine loopM_ub (x := n - 1) ?_ (List.mem_range.2 (by omega)) ?_ g
  · intro g i
    unfold read3i read3
    split
    · exact Or.inl rfl
    · split
      · rw [Outcome.bind_ok, UGrid.insertNextPoint3]
        split
        · exact Or.inl rfl
        · exact Or.inr ⟨_, rfl⟩
      · exact Or.inl rfl
  · intro g
    have : read3i data (n - 1) = .ub := by
      rw [read3i]
      split
      · rfl
      · rw [read3]
        have : data[(n - 1) * 3 + 2]? = none := by
          rw [List.getElem?_eq_none_iff]; omega
        rw [this]
        split
        · next h => cases h
        · rfl
    rw [this]
    rfl

/-- **C80** `setPoints` on a new grid: the points of the array, in order, one cell for each,
handed over. -/
theorem C80_set_points {T : Type} (ps : List (Point T)) (rest : List T) (ct : Int) (hm : 3 * ps.length ≤ 2 ^ 31) :
    ∃ g, (UGrid.new T).setPoints ((ps.flatMap fun p => [p.1, p.2.1, p.2.2]) ++ rest) ps.length ct = .ok g ∧
      g.seen = some (ps.map some, (List.range ps.length).map (fun i => ([i], ct))) ∧ Cloud g ps := by
  have key : ∀ k, k ≤ ps.length → loopM (fun (g : UGrid T) i =>
      read3i ((ps.flatMap fun p => [p.1, p.2.1, p.2.2]) ++ rest) i >>= fun p =>
        .ok { g with pnts := g.pnts.set i (some p), cells := g.cells ++ [[g.idx]], idx := g.idx + 1 })
      (List.range k) { UGrid.new T with pnts := resize (UGrid.new T).pnts ps.length } =
      .ok { UGrid.new T with
        pnts := (ps.take k).map some ++ List.replicate (ps.length - k) none
        cells := (List.range k).map (fun i => [i])
        idx := k } := by
    intro k
    induction k with
    | zero => intro _; simp [resize, UGrid.new, loopM]
    | succ k ih =>
      intro hk
      rw [List.range_succ, loopM_snoc, ih (by omega), Outcome.bind_ok, read3i_ok ps k (by omega) hm rest, Outcome.bind_ok]
      congr 2
      · apply List.ext_getElem?
        intro j
        rw [List.getElem?_set]
        rcases Nat.lt_trichotomy j k with hj | hj | hj
        · rw [if_neg (by omega), List.getElem?_append_left (by simp; omega), List.getElem?_append_left (by simp; omega)]
          simp only [List.getElem?_map, List.getElem?_take]
          rw [if_pos hj, if_pos (by omega)]
        · subst hj
          rw [if_pos rfl, if_pos (by simp; omega), List.getElem?_append_left (by simp; omega)]
          simp only [List.getElem?_map, List.getElem?_take]
          rw [if_pos (by omega), List.getElem?_eq_getElem (by omega)]
          rfl
        · rw [if_neg (by omega), List.getElem?_append_right (by simp; omega), List.getElem?_append_right (by simp; omega)]
          simp only [List.getElem?_replicate, List.length_map, List.length_take]
          by_cases hl : j < ps.length
          · rw [if_pos (by omega), if_pos (by omega)]
          · rw [if_neg (by omega), if_neg (by omega)]
      · simp
  have h := key ps.length le_rfl
  rw [List.take_length, Nat.sub_self, List.replicate_zero, List.append_nil] at h
  have hc : Cloud { UGrid.new T with
        pnts := ps.map some
        cells := (List.range ps.length).map (fun i => [i])
        idx := ps.length } ps := ⟨rfl, rfl, rfl, Nat.one_pos, Nat.one_pos⟩
  obtain ⟨g, e, hg, hs⟩ := hc.push ct
  refine ⟨g, ?_, hs, hg⟩
  rw [UGrid.setPoints, if_neg (by simp [UGrid.new]), h, Outcome.bind_ok, e]

example : ∃ g, (UGrid.new Int).setPoints [1, 2, 3, 4, 5, 6] 2 1 = .ok g ∧
    g.seen = some ([some (1, 2, 3), some (4, 5, 6)], [([0], 1), ([1], 1)]) := ⟨_, rfl, rfl⟩

/-- **C80 fails**: the ways of adding points do not go together.  `insertNextPoint` does not
advance the index `addPoint` writes to, so the inserted point is overwritten; `setPoints` does
not set the index back, so after `addPoint` its cells refer to points that do not exist. -/
theorem C80_mixed_fails {T : Type} (p q : Point T) :
    (∃ g1 g2, (UGrid.new T).insertNextPoint [p.1, p.2.1, p.2.2] = .ok g1 ∧
      g1.addPoint [q.1, q.2.1, q.2.2] = .ok g2 ∧ g2.pnts = [some q] ∧ g2.numOfPoints = 1) ∧
    (∃ g1 g2, (UGrid.new T).addPoint [p.1, p.2.1, p.2.2] = .ok g1 ∧
      g1.setPoints [q.1, q.2.1, q.2.2] 1 1 = .ok g2 ∧ g2.pnts = [some q] ∧ g2.cells = [[0], [1]] ∧
      ¬ g2.wellFormed) := by
  refine ⟨⟨_, _, rfl, rfl, rfl, rfl⟩, ⟨_, _, rfl, rfl, rfl, rfl, fun h => ?_⟩⟩
  obtain ⟨r, hr⟩ := h.1 [1] (by simp [UGrid.new]) 1 List.mem_cons_self
  change ([some q] : List (Option (Point T)))[1]? = _ at hr
  simp at hr

/-- **C80 fails**: `reset` does not empty the grid.  On a grid not handed over it destroys the
arrays still in use: every later call that adds points is undefined.  On a grid handed over
once the old points and cells remain, and as many new points are written over the old ones
while their cells are added to the old cells. -/
theorem C80_reset_fails {T : Type} (ps : List (Point T)) (ct : Int) (p q : Point T) :
    (∃ g g', (UGrid.new T).calls (ps.map Call.add) = .ok g ∧ g.reset = .ok g' ∧
      g'.addPoint [q.1, q.2.1, q.2.2] = .ub ∧ g'.push ct = .ub ∧ g'.reset = .ub) ∧
    (∃ g g' g'', (UGrid.new T).calls [.add p, .push ct] = .ok g ∧ g.reset = .ok g' ∧
      g'.calls [.add q, .push ct] = .ok g'' ∧ g''.seen = some ([some q], [([0], ct), ([0], ct)])) := by
  constructor
  · have hrefs : ∀ (ps : List (Point T)) (g g' : UGrid T), g.calls (ps.map Call.add) = .ok g' →
        g'.pntsRefs = g.pntsRefs ∧ g'.cellsRefs = g.cellsRefs := by
      intro ps
      induction ps with
      | nil => intro g g' h; cases h; exact ⟨rfl, rfl⟩
      | cons p ps ih =>
        intro g g' h
        rw [List.map_cons] at h
        rw [UGrid.calls, loopM] at h
        cases hc : g.call (.add p) with
        | ok g1 =>
          rw [hc, Outcome.bind_ok] at h
          obtain ⟨a, b⟩ := ih g1 g' h
          rw [UGrid.call, UGrid.addPoint] at hc
          split at hc
          · cases hc
          · rw [read3_triple, Outcome.bind_ok] at hc
            cases hc
            exact ⟨a, b⟩
        | _ => rw [hc] at h; cases h
    obtain ⟨g, e, _⟩ := cloud_calls (ps.map Call.add) (UGrid.new T) [] (cloud_new T)
    obtain ⟨h1, h2⟩ := hrefs ps _ g e
    have h1 : g.pntsRefs = 1 := h1
    have h2 : g.cellsRefs = 1 := h2
    refine ⟨g, _, e, by rw [UGrid.reset, if_neg (by omega)], ?_, ?_, ?_⟩
    · rw [UGrid.addPoint, if_pos (by simp [h1])]
    · rw [UGrid.push, if_pos (by simp [h1])]
    · rw [UGrid.reset, if_pos (by simp [h1])]
  · exact ⟨_, _, _, rfl, rfl, rfl, rfl⟩

/-- **C80** Cells given by point numbers are stored as given, in order, and point numbers given
to `setPointIDs` are collected in order. -/
theorem C80_insert_cells {T : Type} (g : UGrid T) (hg : 0 < g.cellsRefs) (cs : List (List Nat)) (ids : List Nat) :
    loopM UGrid.insertNextCell cs g =
      .ok { g with cells := g.cells ++ cs, numOfCells := g.numOfCells + cs.length } ∧
    (g.setPointIDs ids).pointIDs = g.pointIDs ++ ids := by
  constructor
  · induction cs generalizing g with
    | nil => simp [loopM]
    | cons c cs ih =>
      rw [loopM_cons_ok (by rw [UGrid.insertNextCell, if_neg (by omega)])]
      refine (ih { g with cells := g.cells ++ [c], numOfCells := g.numOfCells + 1 } hg).trans ?_
      simp [Nat.add_comm, Nat.add_left_comm]
  · have : ∀ (l acc : List Nat), l.foldl (fun acc i => acc ++ [i]) acc = acc ++ l := by
      intro l
      induction l with
      | nil => simp
      | cons x l ih => intro acc; rw [List.foldl_cons, ih]; simp
    exact this _ _

example : ∃ g, loopM UGrid.insertNextCell [[0, 1], [2]] (UGrid.new Int) = .ok g ∧ g.cells = [[0, 1], [2]] ∧
    g.numOfCells = 2 :=
  ⟨_, (C80_insert_cells (UGrid.new Int) (by decide) [[0, 1], [2]] []).1, rfl, rfl⟩

/-! ## C81: data arrays -/

/-- the arrays of point or cell data a reader finds under a name -/
def find {T : Type} (l : List (DataArray T)) (n : Str) : Option (DataArray T) := l.find? (fun a => a.name = n)

theorem find_addArray {T : Type} (l : List (DataArray T)) (a : DataArray T) (n : Str) :
    find (addArray l a) n = if n = a.name then some a else find l n := by
  induction l with
  | nil =>
    by_cases h : n = a.name
    · simp [find, addArray, h]
    · simp [find, addArray, h, Ne.symm h]
  | cons b l ih =>
    rw [addArray]
    by_cases hb : b.name = a.name
    · rw [if_pos hb]
      by_cases h : n = a.name
      · simp [find, h]
      · have h1 : ¬ a.name = n := fun e => h e.symm
        have h2 : ¬ b.name = n := fun e => h (by rw [← hb, e])
        simp [find, h, h1, h2]
    · rw [if_neg hb]
      by_cases h2 : b.name = n
      · have h : ¬ n = a.name := fun e => hb (by rw [h2, e])
        simp [find, h, h2]
      · unfold find at ih ⊢
        rw [List.find?_cons_of_neg (by simpa using h2), List.find?_cons_of_neg (by simpa using h2), ih]

/-- what is found in a grid under a name: in the point data for `0`, else in the cell data -/
def Fields.get {T : Type} (F : Fields T) (type : Int) (n : Str) : Option (DataArray T) :=
  if type = 0 then find F.point n else find F.cell n

theorem get_attach {T : Type} (F : Fields T) (type : Int) (a : DataArray T) (t : Int) (n : Str) :
    (attach F type a).get t n = if (t = 0 ↔ type = 0) ∧ n = a.name then some a else F.get t n := by
  unfold attach Fields.get
  by_cases h1 : type = 0 <;> by_cases h2 : t = 0 <;> simp [h1, h2, find_addArray]

theorem appendAt_ok {T : Type} (vs data : List T) (i : Nat) (h : i < data.length) :
    appendAt vs data i = .ok (vs ++ [data[i]]) := by
  simp [appendAt, readAt, List.getElem?_eq_getElem h]

theorem append_row {T : Type} (data : List (List T)) (i : Nat) (h : ∀ d ∈ data, i < d.length) (vs : List T) :
    loopM (fun vs dn => appendAt vs dn i) data vs = .ok (vs ++ data.filterMap (fun d => d[i]?)) := by
  induction data generalizing vs with
  | nil => simp [loopM]
  | cons d data ih =>
    have hd := h d List.mem_cons_self
    rw [loopM_cons_ok (step := fun vs dn => appendAt vs dn i) (appendAt_ok vs d i hd), ih (fun d hd => h d (List.mem_cons_of_mem _ hd))]
    simp [List.getElem?_eq_getElem hd]

theorem append_rows {T : Type} (data : List (List T)) (k : Nat) (h : ∀ d ∈ data, k ≤ d.length) :
    loopM (fun vs i => loopM (fun vs dn => appendAt vs dn i) data vs) (List.range k) [] =
      .ok ((List.range k).flatMap fun i => data.filterMap (fun d => d[i]?)) := by
  induction k with
  | zero => rfl
  | succ k ih =>
    rw [List.range_succ, loopM_snoc, ih (fun d hd => by have := h d hd; omega), Outcome.bind_ok, append_row data k (fun d hd => by have := h d hd; omega), List.flatMap_append]
    simp

theorem row_length {T : Type} (data : List (List T)) (i : Nat) (h : ∀ d ∈ data, i < d.length) :
    (data.filterMap (fun d => d[i]?)).length = data.length ∧
    ∀ n (hn : n < data.length), (data.filterMap (fun d => d[i]?))[n]? = data[n][i]? := by
  induction data with
  | nil => simp
  | cons d data ih =>
    have hd := h d List.mem_cons_self
    obtain ⟨h1, h2⟩ := ih (fun d hd => h d (List.mem_cons_of_mem _ hd))
    rw [List.filterMap_cons, List.getElem?_eq_getElem hd]
    refine ⟨by simp [h1], fun n hn => ?_⟩
    cases n with
    | zero => simp [List.getElem?_eq_getElem hd]
    | succ n => simpa using h2 n (by simpa using hn)

theorem getElem?_flatMap_const {α β : Type} (l : List α) (f : α → List β) (c : Nat) (hc : ∀ x ∈ l, (f x).length = c)
    (i n : Nat) (hi : i < l.length) (hn : n < c) : (l.flatMap f)[i * c + n]? = (f l[i])[n]? := by
  induction l generalizing i with
  | nil => simp at hi
  | cons x l ih =>
    have hx := hc x List.mem_cons_self
    rw [List.flatMap_cons]
    cases i with
    | zero =>
      rw [List.getElem?_append_left (by simp [hx]; omega)]
      simp
    | succ i =>
      have e : (i + 1) * c + n = c + (i * c + n) := by ring
      rw [e, List.getElem?_append_right (by omega), hx, Nat.add_sub_cancel_left]
      simpa using ih (fun x h => hc x (List.mem_cons_of_mem _ h)) i (by simpa using hi)

/-- **C81** Vector and tensor data: with `c ≥ 1` component arrays, each long enough, the grid
holds under the name one array of tuples of `c`, one tuple for each element, the n-th
component of the i-th tuple being `data[n][i]`; it is point data exactly for discretization
`0`, and every other array is left as it was. -/
theorem C81_vector {T : Type} (F : Fields T) (name : Str) (data : List (List T)) (k : Nat) (type : Int)
    (hne : data ≠ []) (h : ∀ d ∈ data, k ≤ d.length) :
    ∃ F' a, addVector F name data k type = .ok F' ∧ F'.get type name = some a ∧
      a.comps = data.length ∧ a.values.length = k * data.length ∧
      (∀ i n, i < k → (hn : n < data.length) → a.values[i * a.comps + n]? = data[n][i]?) ∧
      ∀ t m, ((t = 0 ↔ type = 0) → m ≠ name) → F'.get t m = F.get t m := by
  have hc : max 1 data.length = data.length := by
    have := List.length_pos_iff.2 hne; omega
  rw [addVector, append_rows data k h, Outcome.bind_ok]
  refine ⟨_, _, rfl, by rw [get_attach, if_pos ⟨Iff.rfl, rfl⟩], hc, ?_, ?_, ?_⟩
  · dsimp only
    rw [List.length_flatMap]
    have : (List.range k).map (fun i => (data.filterMap (fun d => d[i]?)).length) =
        (List.range k).map (fun _ => data.length) :=
      List.map_congr_left fun i hi =>
        (row_length data i fun d hd => lt_of_lt_of_le (List.mem_range.1 hi) (h d hd)).1
    rw [this]
    clear this
    induction k with
    | zero => simp
    | succ k ih =>
      rw [List.range_succ, List.map_append, List.sum_append, ih (fun d hd => by have := h d hd; omega), Nat.succ_mul]
      simp
  · intro i n hi hn
    dsimp only
    rw [hc, getElem?_flatMap_const (List.range k) _ data.length _ i n (by simpa using hi) hn]
    · rw [List.getElem_range]
      exact (row_length data i fun d hd => lt_of_lt_of_le hi (h d hd)).2 n hn
    · intro j hj
      exact (row_length data j fun d hd => lt_of_lt_of_le (List.mem_range.1 hj) (h d hd)).1
  · intro t m hm
    rw [get_attach, if_neg]
    rintro ⟨h1, h2⟩
    exact hm h1 h2

example : addVector (⟨[], []⟩ : Fields Int) "v".toList [[1, 2, 9], [3, 4, 9]] 2 1 =
    .ok ⟨[], [⟨"v".toList, 2, [1, 3, 2, 4]⟩]⟩ := by decide

/-- **C81** The three-array and the one-array form give the same as the general one. -/
theorem C81_forms {T : Type} (F : Fields T) (name : Str) (k : Nat) (type : Int) (d1 d2 d3 : List T) :
    addVector3 F name k type d1 d2 d3 = addVector F name [d1, d2, d3] k type ∧
    addScalar F name d1 k type = addVector F name [d1] k type := by
  have sn : ∀ x : Outcome (List T), (x >>= fun s => .ok s) = x := by intro x; cases x <;> rfl
  have e3 : ∀ (vs : List T) (i : Nat), loopM (fun vs dn => appendAt vs dn i) [d1, d2, d3] vs =
      (appendAt vs d1 i >>= fun vs => appendAt vs d2 i >>= fun vs => appendAt vs d3 i) := by
    intro vs i
    simp only [loopM, sn]
  have e1 : ∀ (vs : List T) (i : Nat), loopM (fun vs dn => appendAt vs dn i) [d1] vs = appendAt vs d1 i := by
    intro vs i
    simp only [loopM, sn]
  constructor
  · rw [addVector3, addVector]; simp only [e3]; rfl
  · rw [addScalar, addVector]; simp only [e1]; rfl

theorem appendAt_cases {T : Type} (vs data : List T) (i : Nat) :
    appendAt vs data i = .ub ∨ ∃ v, appendAt vs data i = .ok v := by
  by_cases hi : i < data.length
  · exact Or.inr ⟨_, appendAt_ok vs data i hi⟩
  · left
    simp [appendAt, readAt, List.getElem?_eq_none_iff.2 (Nat.not_lt.1 hi)]

/-- **C81** The number of elements is trusted: with any component array shorter than it, the
call is undefined. -/
theorem C81_short {T : Type} (F : Fields T) (name : Str) (data : List (List T)) (k : Nat) (type : Int)
    (h : ∃ d ∈ data, d.length < k) : addVector F name data k type = .ub := by
  obtain ⟨d, hd, hl⟩ := h
  have : loopM (fun vs i => loopM (fun vs dn => appendAt vs dn i) data vs) (List.range k) ([] : List T) = .ub := by
    refine loopM_ub (x := k - 1) (fun vs i => loopM_ub_or_ok (fun vs dn => appendAt_cases vs dn i) data vs)
      (List.mem_range.2 (by omega)) (fun vs => ?_) []
    refine loopM_ub (fun vs dn => appendAt_cases vs dn (k - 1)) hd (fun vs => ?_) vs
    simp [appendAt, readAt, List.getElem?_eq_none_iff.2 (show d.length ≤ k - 1 by omega)]
  rw [addVector, this]
  rfl

example : addScalar (⟨[], []⟩ : Fields Int) "v".toList [1, 2] 3 0 = .ub := by decide

end Verif.Catalyst
