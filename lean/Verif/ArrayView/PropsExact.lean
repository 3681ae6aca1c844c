import Verif.ArrayView.PropsView

/-!
# C39 and C43, exactly: strided views over containers, equality of strided views
-/

namespace Verif.ArrayView

/-! ## C39 -/

theorem linLoop_mono' (is ns ss : List Int) (h : Contained is ns) (hs : ∀ p ∈ ns.zip ss, 1 < p.1 → 0 ≤ p.2) :
    0 ≤ linLoop 0 is ss ∧ linLoop 0 is ss ≤ linLoop 0 (ns.map (· - 1)) ss := by
  induction h generalizing ss with
  | nil => simp [linLoop]
  | @cons i n is ns h0 h1 ih =>
    cases ss with
    | nil => simp [linLoop]
    | cons s ss =>
      have hs0 := hs (n, s) (by simp)
      have := ih ss fun t ht => hs t (by simp [ht])
      rw [List.map_cons, linLoop, linLoop, linLoop_acc, linLoop_acc (0 + (n - 1) * s)]
      by_cases hn : 1 < n
      · have hs0 := hs0 hn
        constructor
        · nlinarith [mul_nonneg h0.1 hs0]
        · nlinarith [mul_le_mul_of_nonneg_right (show i ≤ n - 1 by omega) hs0]
      · have e1 : i = 0 := by omega
        have e2 : n = 1 := by omega
        subst e1 e2
        simpa using this

theorem linLoop_zeros (k : Nat) (ss : List Int) : linLoop 0 (List.replicate k 0) ss = 0 := by
  induction k generalizing ss with
  | zero => cases ss <;> rfl
  | succ k ih =>
    cases ss with
    | nil => rfl
    | cons s ss => rw [List.replicate_succ, linLoop, zero_mul, zero_add, ih]

theorem strides_nonneg (ns ss : List Int) (hp : ∀ n ∈ ns, 0 < n)
    (h : ∀ is, Contained is ns → 0 ≤ linLoop 0 is ss) : ∀ p ∈ ns.zip ss, 1 < p.1 → 0 ≤ p.2 := by
  induction ns generalizing ss with
  | nil => simp
  | cons n ns ih =>
    cases ss with
    | nil => simp
    | cons s ss =>
      intro p hmem h1
      rw [List.zip_cons_cons, List.mem_cons] at hmem
      rcases hmem with rfl | hmem
      · have := h (1 :: List.replicate ns.length 0)
          (contained_cons.2 ⟨⟨by omega, h1⟩, contained_zero fun m hm => hp m (by simp [hm])⟩)
        rw [linLoop, linLoop_acc, linLoop_zeros] at this
        simpa using this
      · refine ih ss (fun m hm => hp m (by simp [hm])) (fun is his => ?_) p hmem h1
        have := h (0 :: is) (contained_cons.2 ⟨⟨le_refl 0, hp n (by simp)⟩, his⟩)
        rwa [linLoop, zero_mul, zero_add] at this

/-- C39 for strided views over a container of `n` elements, exactly, for positive extents and strides
of any sign: every contained index stays inside if and only if the container covers `total_size()` and
no stride is negative along a dimension with more than one element.  (The constructor asks only for
`size()` elements.) -/
theorem C39_strided_container_iff (n : Nat) (b : Bounds) (hp : ∀ k ∈ b.ext, 0 < k) (v : View)
    (hv : ofContainer n b = .ok v) :
    InBuffer n v ↔ b.totalSize ≤ n ∧ ∀ p ∈ b.ext.zip b.str, 1 < p.1 → 0 ≤ p.2 := by
  rw [C39_container_check] at hv
  split at hv
  · obtain rfl := Outcome.ok.inj hv
    have haddr : ∀ idx, View.addr ⟨some 0, b⟩ idx = some (linLoop 0 idx b.str) := by
      intro idx; simp [View.addr, linearize_eq]
    constructor
    · intro h
      have h' : ∀ is, Contained is b.ext → 0 ≤ linLoop 0 is b.str ∧ linLoop 0 is b.str < n := by
        intro is his
        obtain ⟨p, h1, h2, h3⟩ := h is his
        rw [haddr, Option.some.injEq] at h1
        subst h1
        exact ⟨h2, h3⟩
      refine ⟨?_, strides_nonneg b.ext b.str hp fun is his => (h' is his).1⟩
      have := (h' _ (contained_last hp)).2
      rw [Bounds.totalSize, totalLoop_eq]
      omega
    · rintro ⟨h1, h2⟩ idx hidx
      have := linLoop_mono' idx b.ext b.str hidx h2
      rw [Bounds.totalSize, totalLoop_eq] at h1
      exact ⟨_, haddr idx, this.1, by omega⟩
  · simp at hv

/-- every second of five elements -/
example : InBuffer 5 ⟨some 0, ofStrides [3] [2]⟩ ∧ ¬ InBuffer 4 ⟨some 0, ofStrides [3] [2]⟩ ∧
    ¬ InBuffer 9 ⟨some 0, ofStrides [3] [-1]⟩ :=
  ⟨(C39_strided_container_iff 5 (ofStrides [3] [2]) (by decide) _ (by decide)).2 (by decide),
    fun h => absurd ((C39_strided_container_iff 4 (ofStrides [3] [2]) (by decide) _ (by decide)).1 h) (by decide),
    fun h => absurd ((C39_strided_container_iff 9 (ofStrides [3] [-1]) (by decide) _ (by decide)).1 h) (by decide)⟩

/-! ## C43 -/

theorem equalLoop_shapes [BEq T] [LawfulBEq T] (m1 m2 : List T) (v w : View) (r1 : v.bnd.ext ≠ []) (hprod : v.bnd.ext.prod = w.bnd.ext.prod)
    (b1 : InBuffer m1.length v) (b2 : InBuffer m2.length w) (k : Nat) :
    ∀ x y, Contained x v.bnd.ext → Contained y w.bnd.ext → rankOf x v.bnd.ext = rankOf y w.bnd.ext →
    v.bnd.ext.prod - rankOf x v.bnd.ext = k → ∀ fuel, k < fuel →
    ∃ r, equalLoop m1 m2 v w x y fuel = .ok r ∧
      (r = true ↔ ∀ x' y', Contained x' v.bnd.ext → Contained y' w.bnd.ext →
        rankOf x' v.bnd.ext = rankOf y' w.bnd.ext → rankOf x v.bnd.ext ≤ rankOf x' v.bnd.ext →
        v.get m1 x' = w.get m2 y') := by
  induction k with
  | zero => intro x y hx _ _ h; have := rank_bounds hx; omega
  | succ k ih =>
    intro x y hx hy hxy hk fuel hf
    cases fuel with
    | zero => omega
    | succ fuel =>
      have hne : idxEq x (endIdx v.bnd.ext) = false := by
        rw [idxEq, beq_eq_false_iff_ne, endIdx]
        intro e
        rw [e] at hx
        have h1 := idxGe_contained hx r1
        rw [idxGe_self] at h1
        exact absurd h1 (by simp)
      obtain ⟨a, ha⟩ := get_ok m1 v b1 x hx
      obtain ⟨c, hc⟩ := get_ok m2 w b2 y hy
      rw [equalLoop, hne, ha, hc]
      simp only [Outcome.bind_ok, Bool.false_eq_true, if_false]
      by_cases hac : a = c
      · rw [if_pos (by simpa using hac)]
        rcases inc_spec hx with ⟨h1, h2⟩ | ⟨h1, h2⟩
        · rcases inc_spec hy with ⟨g1, g2⟩ | ⟨g1, g2⟩
          · obtain ⟨r, hr1, hr2⟩ := ih (inc v.bnd.ext x) (inc w.bnd.ext y) h1 g1 (by omega)
              (by rw [h2]; push_cast at hk; omega) fuel (by omega)
            refine ⟨r, hr1, hr2.trans ⟨fun h x' y' hx' hy' hxy' hle => ?_,
              fun h x' y' hx' hy' hxy' hle => h x' y' hx' hy' hxy' (by omega)⟩⟩
            rcases lt_or_eq_of_le hle with hlt | heq
            · exact h x' y' hx' hy' hxy' (by omega)
            · rw [← rank_inj hx hx' heq, ← rank_inj hy hy' (by omega), ha, hc, hac]
          · have := rank_bounds h1
            omega
        · have hk0 : k = 0 := by rw [h2] at hk; push_cast at hk; omega
          cases fuel with
          | zero => omega
          | succ fuel =>
            refine ⟨true, ?_, ?_⟩
            · rw [h1, equalLoop]
              simp [idxEq, endIdx]
            · simp only [true_iff]
              intro x' y' hx' hy' hxy' hle
              have := rank_bounds hx'
              rw [← rank_inj hx hx' (by omega), ← rank_inj hy hy' (by omega), ha, hc, hac]
      · rw [if_neg (by simpa using hac)]
        refine ⟨false, rfl, by simp, fun h => ?_⟩
        have := h x y hx hy hxy (le_refl _)
        rw [ha, hc] at this
        exact absurd (Outcome.ok.inj this) hac

/-- C43, exactly what `==` on strided views means, for any two shapes with positive extents and any
strides, the views staying inside their buffers: as many elements on both sides, and either the same
start address in the same buffer (the strides play no part then, which is why `C43_eq_pointer_fails`)
or the same elements in row-major order (the extents play no other part, which is why
`C43_eq_shape_fails`). -/
theorem C43_eq_strided_iff [BEq T] [LawfulBEq T] (m1 m2 : List T) (v w : View) (r1 : v.bnd.ext ≠ [])
    (p1 : ∀ n ∈ v.bnd.ext, 0 < n) (p2 : ∀ n ∈ w.bnd.ext, 0 < n) (b1 : InBuffer m1.length v)
    (b2 : InBuffer m2.length w) (same : Bool) (fuel : Nat) (hf : v.bnd.ext.prod < fuel)
    (c1 c2 : Bounds) (hc1 : ofExtents v.bnd.ext = .ok c1) (hc2 : ofExtents w.bnd.ext = .ok c2) :
    ∃ r, eqStrided fuel same m1 m2 v w = .ok r ∧
      (r = true ↔ v.bnd.ext.prod = w.bnd.ext.prod ∧
        ((same = true ∧ v.data = w.data) ∨
          ∀ x y, Contained x v.bnd.ext → Contained y w.bnd.ext → c1.linearize x = c2.linearize y →
            v.get m1 x = w.get m2 y)) := by
  rw [ofExtents_ok] at hc1 hc2
  obtain rfl := Outcome.ok.inj hc1
  obtain rfl := Outcome.ok.inj hc2
  simp only [linearize_eq, linLoop_rank]
  have hsome : v.data.isNone = false := by
    obtain ⟨p, hp, _⟩ := b1 _ (contained_zero p1)
    cases hvd : v.data with
    | none => simp [View.addr, hvd] at hp
    | some _ => rfl
  rw [eqStrided, hsome]
  by_cases hprod : v.bnd.ext.prod = w.bnd.ext.prod
  · rw [if_pos (by simp [size_eq, hprod])]
    by_cases hd : same = true ∧ v.data = w.data
    · rw [if_pos (by simp [hd.1, hd.2])]
      exact ⟨true, rfl, by simp [hprod, hd]⟩
    · rw [if_neg (by simp; intro h; by_contra hh; exact hd ⟨by simpa using hh, h⟩)]
      have hz1 := rank_zero v.bnd.ext
      have hz2 := rank_zero w.bnd.ext
      have hpos := prod_pos' p1
      obtain ⟨r, h1, h2⟩ := equalLoop_shapes m1 m2 v w r1 hprod b1 b2 v.bnd.ext.prod.toNat _ _ (contained_zero p1)
        (contained_zero p2) (by omega) (by omega) fuel (by omega)
      refine ⟨r, h1, h2.trans ⟨fun h => ⟨hprod, .inr fun x y hx hy hxy => h x y hx hy hxy ?_⟩, ?_⟩⟩
      · rw [hz1]; exact (rank_bounds hx).1
      · rintro ⟨-, h | h⟩ x y hx hy hxy -
        · exact absurd h hd
        · exact h x y hx hy hxy
  · rw [if_neg (by simp [size_eq, hprod])]
    exact ⟨false, rfl, by simp [hprod]⟩

/-- a column of a 2x3 matrix against a row of two elements -/
example : eqStrided 9 false [1, 2, 3, 4, 5, 6] [2, 5] ⟨some 1, ⟨[2], [3]⟩⟩ ⟨some 0, ⟨[1, 2], [2, 1]⟩⟩ = .ok true ∧
    eqStrided 9 true [1, 2, 3, 4, 5, 6] [1, 2, 3, 4, 5, 6] ⟨some 0, ⟨[2], [3]⟩⟩ ⟨some 0, ⟨[2], [1]⟩⟩ = .ok true := by
  decide

/-- C43: `at()`, exactly: it yields an element if and only if the index is contained (the view staying
inside its buffer); everything else ends the program. -/
theorem C43_at_iff (mem : List T) (v : View) (hb : InBuffer mem.length v) (idx : List Int)
    (hl : idx.length = v.bnd.ext.length) :
    ((∃ x, v.at' mem idx = .ok x) ↔ Contained idx v.bnd.ext) ∧
    (v.at' mem idx = .throws "terminate" ↔ ¬ Contained idx v.bnd.ext) := by
  obtain ⟨h1, h2⟩ := C43_at_partial mem v hb idx hl
  by_cases hc : Contained idx v.bnd.ext
  · obtain ⟨p, x, -, -, hx⟩ := h1 hc
    refine ⟨⟨fun _ => hc, fun _ => ⟨x, hx⟩⟩, ⟨fun h => ?_, fun h => absurd hc h⟩⟩
    rw [hx] at h
    cases h
  · refine ⟨⟨fun ⟨x, hx⟩ => ?_, fun h => absurd h hc⟩, ⟨fun _ => hc, fun _ => h2 hc⟩⟩
    rw [h2 hc] at hx
    cases hx

example : (∃ x, View.at' [7, 8, 9] ⟨some 0, ⟨[3], [1]⟩⟩ [2] = .ok x) ∧
    View.at' [7, 8, 9] ⟨some 0, ⟨[3], [1]⟩⟩ [3] = .throws "terminate" := ⟨⟨9, by decide⟩, by decide⟩

end Verif.ArrayView
