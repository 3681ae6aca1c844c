import Verif.Catalyst.MeshModel
import Verif.Catalyst.PropsGrid
import Mathlib.Algebra.Group.Basic
import Mathlib.Algebra.BigOperators.Group.List.Basic
import Mathlib.Data.Rat.Defs
import Mathlib.Tactic.Abel

/-!
# C82: exporting a mesh
-/

namespace Verif.Catalyst
open Verif

/-! ## The assumptions on a mesh -/

/-- vertices are numbered 0, 1, ... in some order and have `dims` coordinates; cells are
numbered too; every face of a cell lists that cell among its own -/
structure Mesh.Valid {T : Type} (m : Mesh T) : Prop where
  ids : (m.verts.map Prod.fst).Perm (List.range m.verts.length)
  coords : ∀ v ∈ m.verts, v.2.length = m.dims
  cellIds : (m.cells.map MCell.id).Perm (List.range m.cells.length)
  faces : ∀ c ∈ m.cells, ∀ f ∈ c.faces, c.id ∈ m.faceCells f
  owned : ∀ c ∈ m.owned, c < m.cells.length

/-- two tetrahedra 0 1 2 3 and 0 2 1 4 sharing the face 0 1 2; the second is a ghost -/
def twoTets : Mesh Int where
  dims := 3
  verts := [(0, [0, 0, 0]), (1, [1, 0, 0]), (2, [0, 1, 0]), (3, [0, 0, 1]), (4, [0, 0, -1])]
  cells := [⟨0, [0, 1, 2, 3], [0, 1, 2, 3]⟩, ⟨1, [0, 1, 2, 4], [0, 4, 5, 6]⟩]
  faceVerts := fun f => [[0, 2, 1], [0, 1, 3], [1, 2, 3], [0, 3, 2], [0, 4, 1], [1, 4, 2], [0, 2, 4]].getD f []
  faceCells := fun f => [[0, 1], [0], [0], [0], [1], [1], [1]].getD f []
  owned := [0]

theorem twoTets_valid : twoTets.Valid := ⟨by decide, by decide, by decide, by decide, by decide⟩

/-! ## What the reader makes of a face stream -/

/-- reading `n` faces: a number of vertices, then that many vertices -/
def decode : Nat → List Nat → Option (List (List Nat))
  | 0, [] => some []
  | 0, _ :: _ => none
  | _ + 1, [] => none
  | n + 1, k :: data => if k ≤ data.length then (decode n (data.drop k)).map (data.take k :: ·) else none

theorem decode_encode (fs : List (List Nat)) : decode fs.length (fs.flatMap fun f => f.length :: f) = some fs := by
  induction fs with
  | nil => rfl
  | cons f fs ih =>
    rw [List.flatMap_cons, List.length_cons, List.cons_append, decode, if_pos (by simp), List.drop_left, ih,
      List.take_left]
    rfl

theorem snoc_loop {α : Type} (l acc : List α) : l.foldl (fun d v => d ++ [v]) acc = acc ++ l := by
  induction l generalizing acc with
  | nil => simp
  | cons x l ih => rw [List.foldl_cons, ih]; simp

/-- the vertices of face `f` in the order in which cell `c` sees it: the stored order for the
first cell of the face, the opposite one for any other -/
def orient {T : Type} (m : Mesh T) (c f : Nat) : List Nat :=
  if (m.faceCells f).head? = some c then m.faceVerts f else (m.faceVerts f).reverse

theorem faceFrom_eq {T : Type} (m : Mesh T) (c f : Nat) (h : m.faceCells f ≠ []) :
    faceFrom m c f = .ok (orient m c f) := by
  unfold faceFrom orient
  cases hc : m.faceCells f with
  | nil => exact absurd hc h
  | cons c0 cs => by_cases e : c0 = c <;> simp [e]

theorem faceStream_eq {T : Type} (m : Mesh T) (c : MCell) (h : ∀ f ∈ c.faces, m.faceCells f ≠ []) :
    faceStream m c = .ok ((c.faces.map (orient m c.id)).flatMap fun f => f.length :: f) := by
  have key : ∀ (fs : List Nat) (acc : List Nat), (∀ f ∈ fs, m.faceCells f ≠ []) →
      loopM (fun data f => faceFrom m c.id f >>= fun ids =>
        .ok (ids.foldl (fun d v => d ++ [v]) (data ++ [(m.faceVerts f).length]))) fs acc =
      .ok (acc ++ (fs.map (orient m c.id)).flatMap fun f => f.length :: f) := by
    intro fs
    induction fs with
    | nil => intro acc _; simp [loopM]
    | cons f fs ih =>
      intro acc hf
      have hl : (orient m c.id f).length = (m.faceVerts f).length := by
        unfold orient; split <;> simp
      rw [loopM, faceFrom_eq m c.id f (hf f List.mem_cons_self), Outcome.bind_ok, snoc_loop,
        Outcome.bind_ok, ih _ (fun f h => hf f (List.mem_cons_of_mem _ h))]
      simp [hl]
  exact key c.faces [] h

theorem polyhedron_eq {T : Type} (m : Mesh T) (c : MCell) (h : ∀ f ∈ c.faces, m.faceCells f ≠ []) :
    polyhedron m c = .ok ⟨c.verts, c.faces.length, (c.faces.map (orient m c.id)).flatMap fun f => f.length :: f⟩ := by
  rw [polyhedron, faceStream_eq m c h, Outcome.bind_ok]

/-- what the reader sees of an exported cell: its vertices, and the cycles of its faces -/
def Polyhedron.read (p : Polyhedron) : List Nat × Option (List (List Nat)) := (p.verts, decode p.numFaces p.faceData)

theorem writeCells_eq {T : Type} (m : Mesh T) (h : ∀ c ∈ m.cells, ∀ f ∈ c.faces, m.faceCells f ≠ []) :
    writeCellsToGrid m = .ok (m.cells.map fun c => ⟨c.verts, c.faces.length,
      (c.faces.map (orient m c.id)).flatMap fun f => f.length :: f⟩) := by
  have key : ∀ (cs : List MCell) (acc : List Polyhedron), (∀ c ∈ cs, ∀ f ∈ c.faces, m.faceCells f ≠ []) →
      loopM (fun ps c => polyhedron m c >>= fun p => .ok (ps ++ [p])) cs acc =
      .ok (acc ++ cs.map fun c => ⟨c.verts, c.faces.length,
        (c.faces.map (orient m c.id)).flatMap fun f => f.length :: f⟩) := by
    intro cs
    induction cs with
    | nil => intro acc _; simp [loopM]
    | cons c cs ih =>
      intro acc hc
      rw [loopM, polyhedron_eq m c (hc c List.mem_cons_self), Outcome.bind_ok, Outcome.bind_ok,
        ih _ (fun c h => hc c (List.mem_cons_of_mem _ h))]
      simp
  exact key m.cells [] h

theorem Mesh.Valid.faceCells_ne {T : Type} {m : Mesh T} (h : m.Valid) : ∀ c ∈ m.cells, ∀ f ∈ c.faces, m.faceCells f ≠ [] :=
  fun c hc f hf e => by have := h.faces c hc f hf; rw [e] at this; cases this

/-- **C82** The exported cells: one for each cell of the mesh, in order, and reading back what
was written gives its vertices and, face by face, the vertices of the face in the order in
which this cell sees it. -/
theorem C82_cells {T : Type} (m : Mesh T) (h : m.Valid) :
    ∃ ps, writeCellsToGrid m = .ok ps ∧
      ps.map Polyhedron.read = m.cells.map fun c => (c.verts, some (c.faces.map fun f =>
        if (m.faceCells f).head? = some c.id then m.faceVerts f else (m.faceVerts f).reverse)) := by
  refine ⟨_, writeCells_eq m h.faceCells_ne, ?_⟩
  rw [List.map_map]
  apply List.map_congr_left
  intro c _
  simp only [Function.comp, Polyhedron.read]
  have := decode_encode (c.faces.map (orient m c.id))
  rw [List.length_map] at this
  rw [this]
  rfl

example : ∃ ps, writeCellsToGrid twoTets = .ok ps ∧ ps.length = 2 := by
  obtain ⟨ps, h, e⟩ := C82_cells twoTets twoTets_valid
  exact ⟨ps, h, by simpa [twoTets] using congrArg List.length e⟩

/-- sum of `φ` over the consecutive pairs of a closed cycle -/
def cycleSum {G : Type} [AddCommGroup G] (φ : Nat → Nat → G) : List Nat → G
  | [] => 0
  | x :: l => ((x :: l).zipWith φ (l ++ [x])).sum

theorem pathSum_reverse {G : Type} [AddCommGroup G] (φ : Nat → Nat → G) (hφ : ∀ a b, φ a b = - φ b a) (l : List Nat) :
    (l.reverse.zipWith φ l.reverse.tail).sum = - (l.zipWith φ l.tail).sum := by
  have snoc : ∀ (l : List Nat) (y x : Nat), ((l ++ [y, x]).zipWith φ (l ++ [y, x]).tail).sum =
      ((l ++ [y]).zipWith φ (l ++ [y]).tail).sum + φ y x := by
    intro l
    induction l with
    | nil => intro y x; simp
    | cons a l ih =>
      intro y x
      have := ih y x
      cases l with
      | nil => simp
      | cons b l =>
        simp only [List.cons_append, List.tail_cons, List.zipWith_cons_cons, List.sum_cons] at this ⊢
        rw [this]; abel
  induction l with
  | nil => simp
  | cons x l ih =>
    cases l with
    | nil => simp
    | cons y l =>
      rw [List.reverse_cons, List.reverse_cons, List.append_assoc]
      simp only [List.cons_append, List.nil_append]
      rw [snoc, ← List.reverse_cons, ih, hφ y x]
      simp only [List.tail_cons, List.zipWith_cons_cons, List.sum_cons]
      abel

theorem cycleSum_eq {G : Type} [AddCommGroup G] (φ : Nat → Nat → G) (x : Nat) (l : List Nat) :
    cycleSum φ (x :: l) = ((x :: l).zipWith φ l).sum + φ ((x :: l).getLast (by simp)) x := by
  have : ∀ (l : List Nat) (a x : Nat), ((a :: l).zipWith φ (l ++ [x])).sum =
      ((a :: l).zipWith φ l).sum + φ ((a :: l).getLast (by simp)) x := by
    intro l
    induction l with
    | nil => intro a x; simp
    | cons b l ih =>
      intro a x
      rw [List.cons_append, List.zipWith_cons_cons, List.sum_cons, ih b x, List.zipWith_cons_cons, List.sum_cons,
        List.getLast_cons (by simp : b :: l ≠ [])]
      abel
  exact this l x x

theorem cycleSum_reverse {G : Type} [AddCommGroup G] (φ : Nat → Nat → G) (hφ : ∀ a b, φ a b = - φ b a) (l : List Nat) :
    cycleSum φ l.reverse = - cycleSum φ l := by
  cases l with
  | nil => simp [cycleSum]
  | cons x l =>
    have hne : (x :: l).reverse ≠ [] := by simp
    obtain ⟨y, r, hr⟩ : ∃ y r, (x :: l).reverse = y :: r := by
      cases h : (x :: l).reverse with
      | nil => exact absurd h hne
      | cons y r => exact ⟨y, r, rfl⟩
    have hp := pathSum_reverse φ hφ (x :: l)
    rw [hr] at hp
    rw [hr, cycleSum_eq, cycleSum_eq]
    have h1 : (y :: r).getLast (by simp) = x := by
      have : (y :: r).getLast? = some x := by rw [← hr]; simp
      rw [List.getLast?_eq_getLast_of_ne_nil (by simp)] at this
      exact Option.some.inj this
    have h2 : (x :: l).getLast (by simp) = y := by
      have : (x :: l).getLast? = some y := by
        rw [← List.head?_reverse, hr]; rfl
      rw [List.getLast?_eq_getLast_of_ne_nil (by simp)] at this
      exact Option.some.inj this
    simp only [List.tail_cons] at hp
    rw [h1, h2, hp, hφ x y]
    abel

/-- **C82** Consistent orientation: the two cells of a face see it in opposite order, so any
oriented quantity of the face (its area vector, its flux: a sum over the edges of something
that changes sign with the edge) is opposite for the two, and the contributions of an interior
face to its two cells cancel. -/
theorem C82_orientation {T : Type} (m : Mesh T) (f c0 c1 : Nat) (hc : m.faceCells f = [c0, c1]) (hne : c0 ≠ c1) :
    faceFrom m c0 f = .ok (m.faceVerts f) ∧ faceFrom m c1 f = .ok (m.faceVerts f).reverse ∧
    ∀ {G : Type} [AddCommGroup G] (φ : Nat → Nat → G), (∀ a b, φ a b = - φ b a) →
      cycleSum φ (m.faceVerts f) + cycleSum φ (m.faceVerts f).reverse = 0 := by
  refine ⟨?_, ?_, ?_⟩
  · simp [faceFrom, hc]
  · simp [faceFrom, hc, hne]
  · intro G _ φ hφ
    rw [cycleSum_reverse φ hφ, add_neg_cancel]

/-- the face between the two tetrahedra -/
example : faceFrom twoTets 0 0 = .ok [0, 2, 1] ∧ faceFrom twoTets 1 0 = .ok [1, 2, 0] :=
  ⟨(C82_orientation twoTets 0 0 1 rfl (by decide)).1, (C82_orientation twoTets 0 0 1 rfl (by decide)).2.1⟩

/-! ## Points -/

/-- coordinates, filled up with zeros to three -/
def padded {T : Type} [Zero T] (l : List T) : Point T := (l.getD 0 0, l.getD 1 0, l.getD 2 0)

theorem pad3_eq {T : Type} [Zero T] (l : List T) (h : l.length ≤ 3) : pad3 l = .ok (padded l) := by
  match l, h with
  | [], _ => rfl
  | [_], _ => rfl
  | [_, _], _ => rfl
  | [_, _, _], _ => rfl

theorem pad3_ub {T : Type} [Zero T] (l : List T) (h : 3 < l.length) : pad3 l = .ub := by
  match l, h with
  | _ :: _ :: _ :: _ :: _, _ => rfl

/-- **C82** `writePointsToGrid`: in whatever order the vertices are visited, the grid has one
point for each, at the number of the vertex, with its coordinates filled up with zeros. -/
theorem C82_points {T : Type} [Zero T] (m : Mesh T) (h : m.Valid) (hd : m.dims ≤ 3) :
    ∃ pts, writePointsToGrid m = .ok pts ∧ pts.length = m.verts.length ∧
      ∀ v ∈ m.verts, pts[v.1]? = some (some (padded v.2)) := by
  have hids : ∀ v ∈ m.verts, v.1 < m.verts.length := fun v hv =>
    List.mem_range.1 (h.ids.mem_iff.1 (List.mem_map_of_mem hv))
  have hnd : (m.verts.map Prod.fst).Nodup := h.ids.nodup_iff.2 List.nodup_range
  have key : ∀ (vs : List (Nat × List T)) (pts : List (Option (Point T))), pts.length = m.verts.length →
      (∀ v ∈ vs, v ∈ m.verts) → (vs.map Prod.fst).Nodup →
      ∃ pts', loopM (fun (pts : List (Option (Point T))) (v : Nat × List T) => pad3 v.2 >>= fun xyz =>
          if v.1 < pts.length then .ok (pts.set v.1 (some xyz)) else .ub) vs pts = .ok pts' ∧
        pts'.length = m.verts.length ∧ (∀ v ∈ vs, pts'[v.1]? = some (some (padded v.2))) ∧
        ∀ i, i ∉ vs.map Prod.fst → pts'[i]? = pts[i]? := by
    intro vs
    induction vs with
    | nil => intro pts hl _ _; exact ⟨pts, rfl, hl, by simp, fun _ _ => rfl⟩
    | cons v vs ih =>
      intro pts hl hm hn
      have hv := hm v List.mem_cons_self
      rw [List.map_cons, List.nodup_cons] at hn
      have hlt : v.1 < pts.length := by rw [hl]; exact hids v hv
      obtain ⟨pts', e, hl', h1, h2⟩ := ih (pts.set v.1 (some (padded v.2))) (by simpa using hl)
        (fun v hv => hm v (List.mem_cons_of_mem _ hv)) hn.2
      refine ⟨pts', ?_, hl', ?_, ?_⟩
      · rw [loopM_cons_ok (by rw [pad3_eq v.2 (by rw [h.coords v hv]; exact hd), Outcome.bind_ok, if_pos hlt]), e]
      · intro w hw
        rcases List.mem_cons.1 hw with rfl | hw
        · rw [h2 _ hn.1, List.getElem?_set_self hlt]
        · exact h1 w hw
      · intro i hi
        rw [List.map_cons, List.mem_cons, not_or] at hi
        rw [h2 i hi.2, List.getElem?_set_ne (fun e => hi.1 e.symm)]
  obtain ⟨pts, e, hl, h1, _⟩ := key m.verts (resize [] m.verts.length) (by simp [resize]) (fun _ h => h) hnd
  exact ⟨pts, e, hl, h1⟩

example : ∃ pts, writePointsToGrid twoTets = .ok pts ∧ pts[4]? = some (some (0, 0, -1)) := by
  obtain ⟨pts, h, -, e⟩ := C82_points twoTets twoTets_valid (by decide)
  exact ⟨pts, h, e (4, [0, 0, -1]) (by decide)⟩

/-- **C82** in more than three dimensions the copy runs over the end of the buffer -/
theorem C82_points_four_dims {T : Type} [Zero T] (m : Mesh T) (h : m.Valid) (hd : 3 < m.dims) (hne : m.verts ≠ []) :
    writePointsToGrid m = .ub := by
  unfold writePointsToGrid
  cases hv : m.verts with
  | nil => exact absurd hv hne
  | cons v vs =>
    exact loopM_cons_ub (by
      rw [pad3_ub v.2 (by rw [h.coords v (by rw [hv]; exact List.mem_cons_self)]; exact hd)]; rfl)

example : writePointsToGrid (⟨4, [(0, [1, 2, 3, 4])], [], fun _ => [], fun _ => [], []⟩ : Mesh Int) = .ub :=
  C82_points_four_dims _ ⟨by decide, by decide, by decide, by decide, by decide⟩ (by decide) (by decide)

/-! ## createMesh -/

theorem ghost_eq {T : Type} (m : Mesh T) (h : ∀ c ∈ m.owned, c < m.cells.length) :
    ∃ g, ghostFlags m = .ok g ∧ ∀ i, i < m.cells.length → g[i]? = some (decide (i ∉ m.owned)) := by
  have key : ∀ (o : List Nat) (g : List Bool), g.length = m.cells.length → (∀ c ∈ o, c < m.cells.length) →
      ∃ g', loopM markOwned o g = .ok g' ∧
        ∀ i, i < m.cells.length → g'[i]? = if i ∈ o then some false else g[i]? := by
    intro o
    induction o with
    | nil => intro g _ _; exact ⟨g, rfl, by simp⟩
    | cons c o ih =>
      intro g hl ho
      have hc : c < g.length := by rw [hl]; exact ho c List.mem_cons_self
      obtain ⟨g', e, hg⟩ := ih (g.set c false) (by simpa using hl) (fun c h => ho c (List.mem_cons_of_mem _ h))
      refine ⟨g', by rw [loopM_cons_ok (by rw [markOwned, if_pos hc]), e], fun i hi => ?_⟩
      rw [hg i hi]
      by_cases h1 : i ∈ o
      · simp [h1]
      · by_cases h2 : i = c
        · subst h2; simp [h1, hc]
        · rw [if_neg h1, if_neg (by simp [h1, h2]), List.getElem?_set_ne (fun e => h2 e.symm)]
  obtain ⟨g, e, hg⟩ := key m.owned (List.replicate m.cells.length true) (by simp) h
  refine ⟨g, e, fun i hi => ?_⟩
  rw [hg i hi]
  by_cases hm : i ∈ m.owned <;> simp [hm, hi]

theorem createCells_eq {T : Type} (m : Mesh T) (h : m.Valid) (g : List Bool)
    (hg : ∀ i, i < m.cells.length → g[i]? = some (decide (i ∉ m.owned))) :
    loopM (createCell m g) m.cells [] = .ok ((m.cells.filter (fun c => decide (c.id ∈ m.owned))).map fun c => ⟨c.verts, c.faces.length,
      (c.faces.map (orient m c.id)).flatMap fun f => f.length :: f⟩) := by
  have hid : ∀ c ∈ m.cells, c.id < m.cells.length := fun c hc =>
    List.mem_range.1 (h.cellIds.mem_iff.1 (List.mem_map_of_mem hc))
  have key : ∀ (cs : List MCell) (acc : List Polyhedron), (∀ c ∈ cs, c ∈ m.cells) →
      loopM (createCell m g) cs acc =
      .ok (acc ++ (cs.filter (fun c => decide (c.id ∈ m.owned))).map fun c => ⟨c.verts, c.faces.length,
        (c.faces.map (orient m c.id)).flatMap fun f => f.length :: f⟩) := by
    intro cs
    induction cs with
    | nil => intro acc _; simp [loopM]
    | cons c cs ih =>
      intro acc hc
      have hm := hc c List.mem_cons_self
      by_cases ho : c.id ∈ m.owned
      · have : createCell m g acc c = .ok (acc ++ [⟨c.verts, c.faces.length,
            (c.faces.map (orient m c.id)).flatMap fun f => f.length :: f⟩]) := by
          rw [createCell, hg c.id (hid c hm)]
          simp only [ho, not_true_eq_false, decide_false]
          rw [polyhedron_eq m c (h.faceCells_ne c hm), Outcome.bind_ok]
        rw [loopM_cons_ok this, ih _ (fun c h => hc c (List.mem_cons_of_mem _ h)),
          List.filter_cons_of_pos (by simpa using ho)]
        simp
      · have : createCell m g acc c = .ok acc := by
          rw [createCell, hg c.id (hid c hm)]
          simp only [ho, not_false_eq_true, decide_true]
        rw [loopM_cons_ok this, ih _ (fun c h => hc c (List.mem_cons_of_mem _ h)),
          List.filter_cons_of_neg (by simpa using ho)]
  exact key m.cells [] (fun _ h => h)

/-- **C82** `createMesh` in three dimensions: one polyhedron for each owned cell, in order and
no ghost cell; the points are the vertices in the order visited, narrowed to `float`. -/
theorem C82_create_mesh {T : Type} [Zero T] (fl : T → T) (m : Mesh T) (h : m.Valid) (hd : m.dims = 3) :
    ∃ ps, createMesh fl m = .ok (m.verts.map (fun v => some (padded (v.2.map fl))), ps) ∧
      ps.map Polyhedron.read = (m.cells.filter (fun c => decide (c.id ∈ m.owned))).map fun c =>
        (c.verts, some (c.faces.map fun f =>
          if (m.faceCells f).head? = some c.id then m.faceVerts f else (m.faceVerts f).reverse)) := by
  have hids : ∀ v ∈ m.verts, v.1 < m.verts.length := fun v hv =>
    List.mem_range.1 (h.ids.mem_iff.1 (List.mem_map_of_mem hv))
  have key : ∀ (vs : List (Nat × List T)) (g : UGrid T), 0 < g.pntsRefs → (∀ v ∈ vs, v ∈ m.verts) →
      ∃ g', loopM (createVertex fl m) vs g = .ok g' ∧ 0 < g'.pntsRefs ∧
        g'.pnts = g.pnts ++ vs.map (fun v => some (padded (v.2.map fl))) := by
    intro vs
    induction vs with
    | nil => intro g hg _; exact ⟨g, rfl, hg, by simp⟩
    | cons v vs ih =>
      intro g hg hm
      have hv := hm v List.mem_cons_self
      have hi := hids v hv
      have hl := h.coords v hv
      rw [hd] at hl
      obtain ⟨x, y, z, hxyz⟩ : ∃ x y z, v.2 = [x, y, z] := by
        match hv2 : v.2, hl with
        | [x, y, z], _ => exact ⟨x, y, z, rfl⟩
      have hstep : g.insertNextPoint (v.2.map fl ++ (if m.dims = 2 then [0] else [])) =
          .ok { g with pnts := g.pnts ++ [some (fl x, fl y, fl z)], numOfPoints := g.numOfPoints + 1 } := by
        rw [hxyz, hd]
        simp [UGrid.insertNextPoint, read3, UGrid.insertNextPoint3, Nat.pos_iff_ne_zero.1 hg]
      obtain ⟨g', e, hr, hp⟩ := ih { g with pnts := g.pnts ++ [some (fl x, fl y, fl z)], numOfPoints := g.numOfPoints + 1 }
        hg (fun v h => hm v (List.mem_cons_of_mem _ h))
      refine ⟨g', ?_, hr, ?_⟩
      · have : createVertex fl m g v = .ok { g with pnts := g.pnts ++ [some (fl x, fl y, fl z)], numOfPoints := g.numOfPoints + 1 } := by
          rw [createVertex, if_neg, hstep]
          rintro ⟨i, h1, h2⟩
          rw [hd] at h1 h2
          omega
        rw [loopM_cons_ok this, e]
      · rw [hp, List.map_cons, hxyz]
        simp [padded]
  obtain ⟨g, e1, hr, hp⟩ := key m.verts (UGrid.new T) Nat.one_pos (fun _ h => h)
  obtain ⟨gh, e2, hgh⟩ := ghost_eq m h.owned
  refine ⟨(m.cells.filter (fun c => decide (c.id ∈ m.owned))).map fun c => ⟨c.verts, c.faces.length,
      (c.faces.map (orient m c.id)).flatMap fun f => f.length :: f⟩, ?_, ?_⟩
  · unfold createMesh
    rw [e1, Outcome.bind_ok, e2, Outcome.bind_ok, createCells_eq m h gh hgh, Outcome.bind_ok, UGrid.pushPoints,
      if_neg (by simp only [UGrid.setPointIDs]; omega), Outcome.bind_ok]
    simp only [UGrid.setPointIDs, hp, UGrid.new, List.nil_append]
  · rw [List.map_map]
    apply List.map_congr_left
    intro c _
    simp only [Function.comp, Polyhedron.read]
    have := decode_encode (c.faces.map (orient m c.id))
    rw [List.length_map] at this
    rw [this]
    rfl

/-- only the owned tetrahedron -/
example : ∃ pts ps, createMesh id twoTets = .ok (pts, ps) ∧ ps.length = 1 := by
  obtain ⟨ps, h, e⟩ := C82_create_mesh id twoTets twoTets_valid rfl
  exact ⟨_, ps, h, by simpa [twoTets] using congrArg List.length e⟩

/-- **C82** as far as it holds: for a mesh whose vertices are visited in the order of their
numbers, point number i of `createMesh` is vertex number i, so that the cells refer to the right
points.  (Missing: any other order, see `C82_create_order_fails`.) -/
theorem C82_create_points_partial {T : Type} [Zero T] (fl : T → T) (m : Mesh T) (h : m.Valid) (hd : m.dims = 3)
    (hord : m.verts.map Prod.fst = List.range m.verts.length) :
    ∃ pts ps, createMesh fl m = .ok (pts, ps) ∧ ∀ v ∈ m.verts, pts[v.1]? = some (some (padded (v.2.map fl))) := by
  obtain ⟨ps, e, _⟩ := C82_create_mesh fl m h hd
  refine ⟨_, ps, e, fun v hv => ?_⟩
  obtain ⟨i, hi, rfl⟩ := List.getElem_of_mem hv
  have : m.verts[i].1 = i := by
    have := congrArg (fun l => l[i]?) hord
    simpa [hi] using this
  rw [this]
  simp [hi]

example : ∃ pts ps, createMesh id twoTets = .ok (pts, ps) ∧ pts[4]? = some (some (0, 0, -1)) := by
  obtain ⟨pts, ps, h, e⟩ := C82_create_points_partial id twoTets twoTets_valid rfl rfl
  exact ⟨pts, ps, h, e (4, [0, 0, -1]) (by decide)⟩

/-- two vertices visited in the order 1, 0 -/
def swapped : Mesh Int where
  dims := 3
  verts := [(1, [1, 1, 1]), (0, [0, 0, 0])]
  cells := []
  faceVerts := fun _ => []
  faceCells := fun _ => []
  owned := []

theorem swapped_valid : swapped.Valid :=
  ⟨by decide, by decide, List.Perm.refl _, fun _ hc => (List.not_mem_nil hc).elim, fun _ hc => (List.not_mem_nil hc).elim⟩

/-- **C82 fails** for vertices visited in another order: `createMesh` numbers the points in the
order visited, and the cells go on using the numbers of the mesh. -/
theorem C82_create_order_fails : swapped.Valid ∧
    ∃ pts ps, createMesh id swapped = .ok (pts, ps) ∧ pts[1]? = some (some (0, 0, 0)) := by
  refine ⟨swapped_valid, ?_⟩
  obtain ⟨ps, e, _⟩ := C82_create_mesh id swapped swapped_valid rfl
  exact ⟨_, ps, e, rfl⟩

/-- **C82**, exactly: for a mesh whose vertices have different positions, the points of
`createMesh` are the vertices by number if and only if the vertices are visited in the order of
their numbers. -/
theorem C82_create_points_iff {T : Type} [Zero T] (fl : T → T) (m : Mesh T) (h : m.Valid) (hd : m.dims = 3)
    (hpos : (m.verts.map fun v => padded (v.2.map fl)).Nodup) :
    ∃ pts ps, createMesh fl m = .ok (pts, ps) ∧
      ((∀ v ∈ m.verts, pts[v.1]? = some (some (padded (v.2.map fl)))) ↔
        m.verts.map Prod.fst = List.range m.verts.length) := by
  obtain ⟨ps, e, _⟩ := C82_create_mesh fl m h hd
  refine ⟨_, ps, e, fun hall => ?_, fun hord => ?_⟩
  · apply List.ext_getElem
    · simp
    · intro i h1 h2
      have hi : i < m.verts.length := by simpa using h1
      have := hall m.verts[i] (List.getElem_mem hi)
      rw [List.getElem?_map, Option.map_eq_some_iff] at this
      obtain ⟨v, hv, he⟩ := this
      obtain ⟨hj, rfl⟩ := List.getElem?_eq_some_iff.1 hv
      have hne := List.pairwise_iff_getElem.1 hpos
      rw [List.getElem_map, List.getElem_range]
      rcases Nat.lt_trichotomy m.verts[i].1 i with hlt | heq | hgt
      · exact absurd (by rw [List.getElem_map, List.getElem_map]; simpa using he) (hne _ i (by simpa using hj) (by simpa using hi) hlt)
      · exact heq
      · exact absurd (by rw [List.getElem_map, List.getElem_map]; simpa using he.symm) (hne i _ (by simpa using hi) (by simpa using hj) hgt)
  · obtain ⟨pts, ps', e', hp⟩ := C82_create_points_partial fl m h hd hord
    rw [e] at e'
    rw [(Prod.mk.inj (Outcome.ok.inj e')).1]
    exact hp

example : (twoTets.verts.map fun v => padded (v.2.map id)).Nodup := by decide

/-- **C82 fails** in two dimensions: `createMesh` writes outside of its coordinate array for
every mesh with at least two vertices. -/
theorem C82_create_2d_fails {T : Type} [Zero T] (fl : T → T) (m : Mesh T) (h : m.Valid) (hd : m.dims = 2)
    (hn : 2 ≤ m.verts.length) : createMesh fl m = .ub := by
  have hlast : m.verts.length - 1 ∈ m.verts.map Prod.fst := h.ids.mem_iff.2 (List.mem_range.2 (by omega))
  obtain ⟨w, hw, hwid⟩ := List.mem_map.1 hlast
  have key : loopM (createVertex fl m) m.verts (UGrid.new T) = .ub := by
    refine loopM_ub ?_ hw ?_ _
    · intro g v
      rw [createVertex]
      split
      · exact Or.inl rfl
      · rw [UGrid.insertNextPoint, read3]
        split
        · rw [Outcome.bind_ok, UGrid.insertNextPoint3]
          split
          · exact Or.inl rfl
          · exact Or.inr ⟨_, rfl⟩
        · exact Or.inl rfl
    · intro g
      rw [createVertex, if_pos]
      refine ⟨1, by omega, ?_⟩
      rw [hwid, hd]
      omega
  rw [createMesh, key]
  rfl

example : createMesh id (⟨2, [(0, [0, 0]), (1, [1, 0])], [], fun _ => [], fun _ => [], []⟩ : Mesh Int) = .ub :=
  C82_create_2d_fails _ _ ⟨by decide, by decide, by decide, by decide, by decide⟩ rfl (by decide)

/-- **C82 fails** in one dimension: three coordinates are read from a point with one. -/
theorem C82_create_1d_fails {T : Type} [Zero T] (fl : T → T) (m : Mesh T) (h : m.Valid) (hd : m.dims = 1)
    (hn : m.verts ≠ []) : createMesh fl m = .ub := by
  have key : loopM (createVertex fl m) m.verts (UGrid.new T) = .ub := by
    cases hv : m.verts with
    | nil => exact absurd hv hn
    | cons v vs =>
      apply loopM_cons_ub
      rw [createVertex]
      split
      · rfl
      · have hl := h.coords v (by rw [hv]; exact List.mem_cons_self)
        rw [hd] at hl
        match hv2 : v.2, hl with
        | [x], _ =>
          rw [hd]
          simp [UGrid.insertNextPoint, read3]
  rw [createMesh, key]
  rfl

example : createMesh id (⟨1, [(0, [0]), (1, [1])], [], fun _ => [], fun _ => [], []⟩ : Mesh Int) = .ub :=
  C82_create_1d_fails _ _ ⟨by decide, by decide, by decide, by decide, by decide⟩ rfl (by decide)

example : writeCellsToGrid twoTets = .ok [
    ⟨[0, 1, 2, 3], 4, [3, 0, 2, 1, 3, 0, 1, 3, 3, 1, 2, 3, 3, 0, 3, 2]⟩,
    ⟨[0, 1, 2, 4], 4, [3, 1, 2, 0, 3, 0, 4, 1, 3, 1, 4, 2, 3, 0, 2, 4]⟩] := by decide

example : ∃ pts ps, createMesh id twoTets = .ok (pts, ps) ∧ ps.length = 1 ∧ pts.length = 5 := ⟨_, _, rfl, rfl, rfl⟩

end Verif.Catalyst
