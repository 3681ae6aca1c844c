import Verif.ArrayView.Props

/-!
# C41, C43: slices and sections; emptiness, checked access and equality of views
-/

namespace Verif.ArrayView

/-- the extents and strides of a view both have `rank` components -/
def HasRank (v : View) (r : Nat) : Prop := v.bnd.ext.length = r ∧ v.bnd.str.length = r

/-! ## C41: slices -/

theorem addr_cons (p : Int) (n s : Int) (ns ss : List Int) (i : Int) (idx : List Int) :
    (⟨some p, ⟨n :: ns, s :: ss⟩⟩ : View).addr (i :: idx) = some (p + (i * s + linLoop 0 idx ss)) := by
  simp only [View.addr, linearize_eq, Option.map_some, linLoop, Option.some.injEq]
  rw [linLoop_acc]; ring

/-- C41: fixing the first index gives the view of the remaining ones: `v[i](idx)` is the element
`v(i, idx)`, for strided views -/
theorem C41_slice (v : View) (r : Nat) (hv : HasRank v (r + 1)) (i : Nat) (idx : List Int) :
    HasRank (v.sliceStrided i) r ∧ (v.sliceStrided i).bnd.ext = v.bnd.ext.tail ∧
    (v.sliceStrided i).addr idx = v.addr ((i : Int) :: idx) := by
  obtain ⟨data, ext, str⟩ := v
  obtain ⟨h1, h2⟩ := hv
  cases ext with
  | nil => simp at h1
  | cons n ns =>
  cases str with
  | nil => simp at h2
  | cons s ss =>
  refine ⟨⟨Nat.succ.inj h1, Nat.succ.inj h2⟩, rfl, ?_⟩
  cases data with
  | none => rfl
  | some p =>
    rw [addr_cons]
    simp only [View.addr, View.sliceStrided, Bounds.sliceStrided, linearize_eq, List.tail_cons,
      List.headD_cons, Option.map_some, Option.some.injEq]
    ring

example : HasRank ⟨some 0, ⟨[2, 3], [3, 1]⟩⟩ 2 ∧
    (View.sliceStrided ⟨some 0, ⟨[2, 3], [3, 1]⟩⟩ 1).addr [2] = some 5 := by
  refine ⟨⟨rfl, rfl⟩, by decide⟩

/-- C41: for contiguous views the slice recomputes its strides from the remaining extents, with
the same result -/
theorem C41_slice_contiguous (ext : List Int) (b : Bounds) (hb : ofExtents ext = .ok b) (hne : ext ≠ []) (d : Option Int)
    (i : Nat) :
    ∃ w b', View.sliceContiguous ⟨d, b⟩ i = .ok w ∧ ofExtents ext.tail = .ok b' ∧ w.bnd = b' ∧
      w = View.sliceStrided ⟨d, b⟩ i ∧ ∀ idx, w.addr idx = View.addr ⟨d, b⟩ ((i : Int) :: idx) := by
  rw [ofExtents_ok] at hb
  obtain rfl := Outcome.ok.inj hb
  cases ext with
  | nil => exact absurd rfl hne
  | cons n ns =>
    have hs : View.sliceStrided ⟨d, ⟨n :: ns, suffixProducts (n :: ns)⟩⟩ i =
        ⟨d.map (· + i * ns.prod), ⟨ns, suffixProducts ns⟩⟩ := rfl
    refine ⟨⟨d.map (· + i * ns.prod), ⟨ns, suffixProducts ns⟩⟩, ⟨ns, suffixProducts ns⟩, ?_,
      ofExtents_ok ns, rfl, hs.symm, ?_⟩
    · simp [View.sliceContiguous, Bounds.sliceContiguous, ofExtents_ok, suffixProducts]
    · intro idx
      rw [← hs]
      exact (C41_slice _ ns.length ⟨rfl, by simp [suffixProducts_eq]⟩ i idx).2.2

example : View.sliceContiguous ⟨some 0, ⟨[2, 3], [3, 1]⟩⟩ 1 = .ok ⟨some 3, ⟨[3], [1]⟩⟩ := by decide

/-- C41: the checked `slice(i)` accepts exactly the indices below the first extent, and then is
the unchecked one -/
theorem C41_slice_checked (v : View) (i : Nat) (n : Int) (ns : List Int) (h : v.bnd.ext = n :: ns) :
    v.slice i = (if (i : Int) < n then .ok (v.sliceStrided i) else .outOfRange) ∧
    v.sliceC i = (if (i : Int) < n then v.sliceContiguous i else .outOfRange) := by
  simp only [View.slice, View.sliceC, h, List.headD_cons]
  by_cases hi : (i : Int) < n
  · simp [hi, not_le.mpr hi]
  · simp [hi, not_lt.mp hi]

/-- `v[i₀][i₁]...` -/
def slices (v : View) : List Nat → View
  | [] => v
  | i :: is => slices (v.sliceStrided i) is

/-- C41: slicing repeatedly is indexing with the list of the fixed indices in front -/
theorem C41_slices (is : List Nat) (r : Nat) (v : View) (hv : HasRank v (is.length + r)) (idx : List Int) :
    (slices v is).addr idx = v.addr (is.map Int.ofNat ++ idx) := by
  induction is generalizing v with
  | nil => rfl
  | cons i is ih =>
    have h : HasRank v ((is.length + r) + 1) := by
      rw [List.length_cons] at hv
      rwa [show is.length + 1 + r = is.length + r + 1 by omega] at hv
    have := C41_slice v (is.length + r) h i (is.map Int.ofNat ++ idx)
    rw [slices, ih _ this.1, this.2.2]
    rfl

/-- two slices of a view of rank three -/
example : (slices ⟨some 0, ⟨[2, 3, 4], [12, 4, 1]⟩⟩ [1, 2]).addr [3] = some 23 :=
  (C41_slices [1, 2] 1 ⟨some 0, ⟨[2, 3, 4], [12, 4, 1]⟩⟩ ⟨rfl, rfl⟩ [3]).trans (by decide)

/-! ## C41: sections -/

theorem linLoop_add (o x ss : List Int) (h : o.length = x.length) :
    linLoop 0 (idxAdd o x) ss = linLoop 0 o ss + linLoop 0 x ss := by
  induction o generalizing x ss with
  | nil =>
    cases x with
    | nil => simp [idxAdd, linLoop]
    | cons _ _ => simp at h
  | cons a as ih =>
    cases x with
    | nil => simp at h
    | cons b bs =>
      cases ss with
      | nil => simp [idxAdd, linLoop]
      | cons s ss =>
        have := ih bs ss (by simpa using h)
        simp only [idxAdd, List.zipWith_cons_cons, linLoop] at this ⊢
        rw [linLoop_acc, this, linLoop_acc (0 + a * s), linLoop_acc (0 + b * s)]; ring

theorem section_ok {v w : View} {o bn : List Int} (h : v.section o bn = .ok w) :
    contains o v.bnd.ext = true ∧ idxLe (idxAdd o bn) v.bnd.ext = true ∧
      w = ⟨v.addr o, ⟨bn, v.bnd.str⟩⟩ := by
  unfold View.section at h
  by_cases h1 : contains o v.bnd.ext
  · by_cases h2 : idxLe (idxAdd o bn) v.bnd.ext
    · simp only [h1, h2, Outcome.assert_true, Outcome.bind_ok] at h
      exact ⟨h1, h2, (Outcome.ok.inj h).symm⟩
    · simp [h1, h2] at h
  · simp [h1] at h

/-- C41: `section(origin, bounds)` is accepted exactly when the origin is contained and the
section does not reach beyond the parent in any dimension -/
theorem C41_section_accepted (v : View) (o bn : List Int) (h1 : o.length = v.bnd.ext.length)
    (h2 : bn.length = v.bnd.ext.length) :
    (∃ w, v.section o bn = .ok w) ↔
      (Contained o v.bnd.ext ∧ ∀ i (a : i < o.length) (b : i < bn.length) (c : i < v.bnd.ext.length),
        o[i] + bn[i] ≤ v.bnd.ext[i]) := by
  have hl : (idxAdd o bn).length = v.bnd.ext.length := by simp [idxAdd, h1, h2]
  have hm := (C42_meaning (idxAdd o bn) v.bnd.ext hl).2.1
  have key : idxLe (idxAdd o bn) v.bnd.ext = true ↔
      ∀ i (a : i < o.length) (b : i < bn.length) (c : i < v.bnd.ext.length), o[i] + bn[i] ≤ v.bnd.ext[i] := by
    rw [hm]
    constructor
    · intro h i a b c
      have := h i (by omega) c
      simpa [idxAdd] using this
    · intro h i a c
      have := h i (by omega) (by omega) c
      simpa [idxAdd] using this
  rw [← contained_iff_contains o _ h1, ← key]
  constructor
  · rintro ⟨w, hw⟩
    have := section_ok hw
    exact ⟨this.1, this.2.1⟩
  · rintro ⟨a, b⟩
    exact ⟨⟨v.addr o, ⟨bn, v.bnd.str⟩⟩, by simp [View.section, a, b, ofStrides]⟩

/-- one section that fits and one that does not -/
example : (∃ w, View.section ⟨some 0, ⟨[4, 5], [5, 1]⟩⟩ [1, 2] [3, 3] = .ok w) ∧
    ¬ ∃ w, View.section ⟨some 0, ⟨[4, 5], [5, 1]⟩⟩ [1, 2] [3, 4] = .ok w := by
  constructor
  · rw [C41_section_accepted ⟨some 0, ⟨[4, 5], [5, 1]⟩⟩ [1, 2] [3, 3] rfl rfl]
    refine ⟨by simp [Contained], fun i a b c => ?_⟩
    rcases i with _ | _ | i
    · simp
    · simp
    · simp only [List.length_cons, List.length_nil] at a; omega
  · rw [C41_section_accepted ⟨some 0, ⟨[4, 5], [5, 1]⟩⟩ [1, 2] [3, 4] rfl rfl]
    intro h
    have := h.2 1 (by simp) (by simp) (by simp)
    norm_num at this

theorem contained_add {o bn ext x : List Int} (ho : Contained o ext) (hl : bn.length = ext.length)
    (hle : idxLe (idxAdd o bn) ext = true) (hx : Contained x bn) : Contained (idxAdd o x) ext := by
  induction ho generalizing bn x with
  | nil =>
    cases bn with
    | nil => cases hx; exact contained_nil
    | cons _ _ => simp at hl
  | @cons i n is ns h0 h1 ih =>
    cases hx with
    | nil => simp at hl
    | @cons j m js ms h2 h3 =>
      simp only [idxLe, idxAdd, List.zipWith_cons_cons, idxLt, Bool.not_eq_true',
        Bool.ite_eq_false_distrib] at hle
      by_cases hlt : n < i + m
      · simp [hlt] at hle
      · rw [if_neg hlt] at hle
        refine contained_cons.mpr ⟨⟨by dsimp only; omega, by dsimp only; omega⟩, ih (by simpa using hl) ?_ h3⟩
        simpa [idxLe, idxAdd] using hle

/-- C41: a section addresses exactly the elements `origin + idx` of its parent, all of them
contained in the parent -/
theorem C41_section (v w : View) (o bn : List Int) (h1 : o.length = v.bnd.ext.length)
    (h2 : bn.length = v.bnd.ext.length) (hw : v.section o bn = .ok w) :
    w.bnd.ext = bn ∧ (∀ idx, idx.length = o.length → w.addr idx = v.addr (idxAdd o idx)) ∧
    ∀ idx, Contained idx bn → Contained (idxAdd o idx) v.bnd.ext := by
  obtain ⟨a, b, rfl⟩ := section_ok hw
  refine ⟨rfl, ?_, fun idx hidx => contained_add ((contained_iff_contains _ _ h1).mp a) h2 b hidx⟩
  intro idx hl
  cases hd : v.data with
  | none => simp [View.addr, hd]
  | some p =>
    simp only [View.addr, hd, Option.map_some, linearize_eq, Option.some.injEq]
    rw [linLoop_add o idx _ hl.symm]; ring

example : View.section ⟨some 0, ⟨[4, 5], [5, 1]⟩⟩ [1, 2] [2, 3] = .ok ⟨some 7, ⟨[2, 3], [5, 1]⟩⟩ := by decide

/-- C41: `section(origin)` is the section that extends to the end of the parent in every
dimension -/
theorem C41_section_from (v : View) (o : List Int) (h1 : o.length = v.bnd.ext.length) :
    v.sectionFrom o = v.section o (idxSub v.bnd.ext o) := by
  have h2 : idxAdd o (idxSub v.bnd.ext o) = v.bnd.ext := by
    apply List.ext_getElem
    · simp [idxAdd, idxSub, h1]
    · intro i hi hj
      simp [idxAdd, idxSub]
  have h3 : idxLe v.bnd.ext v.bnd.ext = true := (C42_le_partial_order _ _ _ rfl rfl).1
  rw [View.sectionFrom, View.section, h2, h3]
  simp

/-- C41: a section of a section is the section of the parent at the summed origin -/
theorem C41_section_section (v w u : View) (o1 b1 o2 b2 : List Int) (h1 : o1.length = v.bnd.ext.length)
    (h2 : b1.length = v.bnd.ext.length) (h3 : o2.length = v.bnd.ext.length) (h4 : b2.length = v.bnd.ext.length)
    (hw : v.section o1 b1 = .ok w) (hu : w.section o2 b2 = .ok u) :
    v.section (idxAdd o1 o2) b2 = .ok u := by
  have s1 := C41_section v w o1 b1 h1 h2 hw
  obtain ⟨a1, c1, rfl⟩ := section_ok hw
  obtain ⟨a2, c2, rfl⟩ := section_ok hu
  have ho2 : Contained o2 b1 := (contained_iff_contains _ _ (by rw [h3, h2])).mp a2
  have hin := s1.2.2 o2 ho2
  have hl : (idxAdd o1 o2).length = v.bnd.ext.length := by simp [idxAdd, h1, h3]
  have hc : contains (idxAdd o1 o2) v.bnd.ext = true := (contained_iff_contains _ _ hl).mpr hin
  have hle : idxLe (idxAdd (idxAdd o1 o2) b2) v.bnd.ext = true := by
    have m1 := (C42_meaning (idxAdd o1 b1) v.bnd.ext (by simp [idxAdd, h1, h2])).2.1.mp c1
    have m2 := (C42_meaning (idxAdd o2 b2) b1 (by simp [idxAdd, h2, h3, h4])).2.1.mp c2
    rw [(C42_meaning _ v.bnd.ext (by simp [idxAdd, h1, h3, h4])).2.1]
    intro i hi hj
    have e1 := m1 i (by simp [idxAdd]; omega) hj
    have e2 := m2 i (by simp [idxAdd]; omega) (by omega)
    simp only [idxAdd, List.getElem_zipWith] at e1 e2 ⊢
    omega
  have ha := s1.2.1 o2 (by rw [h3, h1])
  rw [View.section, hc, hle, ← ha]
  rfl

example : View.section ⟨some 0, ⟨[4, 5], [5, 1]⟩⟩ [1, 1] [3, 4] = .ok ⟨some 6, ⟨[3, 4], [5, 1]⟩⟩ ∧
    View.section ⟨some 6, ⟨[3, 4], [5, 1]⟩⟩ [1, 2] [2, 2] = .ok ⟨some 13, ⟨[2, 2], [5, 1]⟩⟩ ∧
    View.section ⟨some 0, ⟨[4, 5], [5, 1]⟩⟩ [2, 3] [2, 2] = .ok ⟨some 13, ⟨[2, 2], [5, 1]⟩⟩ := by decide

/-- views obtained from `v` by any nesting of accepted sections and checked slices -/
inductive Derived (v : View) : View → Prop
  | self : Derived v v
  | section {w u : View} (o bn : List Int) : Derived v w → o.length = w.bnd.ext.length →
      bn.length = w.bnd.ext.length → w.section o bn = .ok u → Derived v u
  | slice {w u : View} (i : Nat) : Derived v w → 1 < w.bnd.ext.length → w.slice i = .ok u → Derived v u

/-- C41: through any nesting of sections and slices, every contained index addresses an element
that the original view also addresses with a contained index -/
theorem C41_nested (v : View) (r : Nat) (hv : HasRank v r) (w : View) (h : Derived v w) :
    (∃ r', HasRank w r') ∧
    ∀ idx, Contained idx w.bnd.ext → ∃ idx', Contained idx' v.bnd.ext ∧ w.addr idx = v.addr idx' := by
  induction h with
  | self => exact ⟨⟨r, hv⟩, fun idx hidx => ⟨idx, hidx, rfl⟩⟩
  | @«section» w u o bn _ h1 h2 hs ih =>
    obtain ⟨⟨r', hr'⟩, ih⟩ := ih
    have s := C41_section w u o bn h1 h2 hs
    obtain ⟨_, _, hu⟩ := section_ok hs
    refine ⟨⟨r', ?_⟩, fun idx hidx => ?_⟩
    · rw [hu]; exact ⟨by rw [← hr'.1]; exact h2, hr'.2⟩
    · rw [s.1] at hidx
      obtain ⟨idx', hc, ha⟩ := ih _ (s.2.2 idx hidx)
      exact ⟨idx', hc, by rw [s.2.1 idx (by rw [hidx.len, h2, h1]), ha]⟩
  | @slice w u i _ h1 hs ih =>
    obtain ⟨⟨r', hr'⟩, ih⟩ := ih
    cases hext : w.bnd.ext with
    | nil => rw [hext] at h1; simp at h1
    | cons n ns =>
      have hc := (C41_slice_checked w i n ns hext).1
      rw [hs] at hc
      by_cases hi : (i : Int) < n
      · rw [if_pos hi] at hc
        obtain rfl := Outcome.ok.inj hc
        have hr1 : r' = ns.length + 1 := by rw [← hr'.1, hext]; rfl
        subst hr1
        have s := fun idx => C41_slice w ns.length hr' i idx
        refine ⟨⟨ns.length, (s []).1⟩, fun idx hidx => ?_⟩
        rw [(s []).2.1, hext, List.tail_cons] at hidx
        obtain ⟨idx', hc', ha⟩ := ih ((i : Int) :: idx) (by
          rw [hext, contained_cons]; exact ⟨⟨by omega, hi⟩, hidx⟩)
        exact ⟨idx', hc', by rw [(s idx).2.2, ha]⟩
      · rw [if_neg hi] at hc; simp at hc

/-- C41: hence a view that stays inside its buffer has only sections and slices that do -/
theorem C41_nested_in_buffer (n : Nat) (v : View) (r : Nat) (hv : HasRank v r) (hb : InBuffer n v) (w : View)
    (h : Derived v w) : InBuffer n w := by
  intro idx hidx
  obtain ⟨idx', hc, ha⟩ := (C41_nested v r hv w h).2 idx hidx
  rw [ha]
  exact hb idx' hc

example : Derived ⟨some 0, ⟨[4, 5], [5, 1]⟩⟩ ⟨some 12, ⟨[3], [1]⟩⟩ :=
  .slice (w := ⟨some 7, ⟨[2, 3], [5, 1]⟩⟩) 1 (.section [1, 2] [2, 3] .self rfl rfl (by decide)) (by decide)
    (by decide)

/-! ## C43 -/

/-- C43 fails: `empty()` is true for a view of six elements and false for a default-constructed
view (it returns whether the data pointer is non-null) -/
theorem C43_empty_fails :
    (∃ v, ofContainer 6 ⟨[2, 3], [3, 1]⟩ = .ok v ∧ v.bnd.size = 6 ∧ v.empty = true) ∧
    (View.default 2).bnd.size = 0 ∧ (View.default 2).empty = false := by
  refine ⟨⟨⟨some 0, ⟨[2, 3], [3, 1]⟩⟩, by decide, by decide, by decide⟩, by decide, by decide⟩

/-- C43: `empty()` in fact agrees with the conversion to `bool` on every view: both report a
non-null pointer -/
theorem C43_empty_meaning (v : View) : v.empty = v.toBool ∧ (v.empty = true ↔ ∃ p, v.data = some p) := by
  refine ⟨rfl, ?_⟩
  cases h : v.data <;> simp [View.empty, h]

/-- C43 fails: `at()` with an index that is not contained terminates the program; the
`out_of_range` it means to throw cannot be caught because the function is `noexcept` -/
theorem C43_at_fails :
    View.at' [1, 2, 3, 4, 5, 6] ⟨some 0, ⟨[2, 3], [3, 1]⟩⟩ [0, 3] = .throws "terminate" := by decide

/-- C43 for `at()`, as far as it holds: on a view inside its buffer, a contained index yields
the element at its address, any other index never yields an element.  (Missing: the error is
not an exception the caller can catch.) -/
theorem C43_at_partial (mem : List T) (v : View) (hb : InBuffer mem.length v) (idx : List Int)
    (hl : idx.length = v.bnd.ext.length) :
    (Contained idx v.bnd.ext → ∃ p x, v.addr idx = some p ∧ mem[p.toNat]? = some x ∧ v.at' mem idx = .ok x) ∧
    (¬ Contained idx v.bnd.ext → v.at' mem idx = .throws "terminate") := by
  rw [View.at']
  constructor
  · intro h
    obtain ⟨p, h1, h2, h3⟩ := hb idx h
    obtain ⟨h4, h5⟩ := load_ok mem p h2 h3
    refine ⟨p, mem[p.toNat], h1, by simp [h4], ?_⟩
    rw [(contained_iff_contains idx _ hl).mpr h, if_pos rfl, View.get, h1]
    exact h5
  · intro h
    rw [if_neg]
    intro hc
    exact h ((contained_iff_contains idx _ hl).mp hc)

/-- a view of six elements -/
example : View.at' [10, 11, 12, 13, 14, 15] ⟨some 0, ⟨[2, 3], [3, 1]⟩⟩ [1, 3] = .throws "terminate" ∧
    View.at' [10, 11, 12, 13, 14, 15] ⟨some 0, ⟨[2, 3], [3, 1]⟩⟩ [1, 2] = .ok 15 := by decide

/-- C43 fails: two contiguous views of different shapes with the same elements in storage order
compare equal -/
theorem C43_eq_shape_fails :
    eqContiguous false [1, 2, 3, 4, 5, 6] [1, 2, 3, 4, 5, 6] ⟨some 0, ⟨[2, 3], [3, 1]⟩⟩ ⟨some 0, ⟨[3, 2], [2, 1]⟩⟩ =
      .ok true := by decide

/-- C43 fails: two strided views of one buffer that start at the same place compare equal
although their elements differ (only the pointers are compared) -/
theorem C43_eq_pointer_fails :
    let v : View := ⟨some 0, ⟨[2], [1]⟩⟩
    let w : View := ⟨some 0, ⟨[2], [2]⟩⟩
    let mem := [1, 2, 3]
    eqStrided 5 true mem mem v w = .ok true ∧ v.get mem [1] = .ok 2 ∧ w.get mem [1] = .ok 3 := by decide

theorem equalPtr_spec [BEq T] [LawfulBEq T] (m1 m2 : List T) (p q : Int) (n : Nat) (hp : 0 ≤ p) (hq : 0 ≤ q)
    (h1 : p + n ≤ m1.length) (h2 : q + n ≤ m2.length) :
    ∃ r, equalPtr m1 m2 p q n = .ok r ∧
      (r = true ↔ ∀ k : Nat, k < n → load m1 (p + k) = load m2 (q + k)) := by
  induction n generalizing p q with
  | zero => exact ⟨true, rfl, by simp⟩
  | succ n ih =>
    obtain ⟨a1, b1⟩ := load_ok m1 p hp (by push_cast at h1; omega)
    obtain ⟨a2, b2⟩ := load_ok m2 q hq (by push_cast at h2; omega)
    obtain ⟨r, hr, hiff⟩ := ih (p + 1) (q + 1) (by omega) (by omega) (by push_cast at h1; omega)
      (by push_cast at h2; omega)
    rw [equalPtr, b1, b2]
    simp only [Outcome.bind_ok]
    by_cases he : m1[p.toNat] = m2[q.toNat]
    · rw [if_pos (by simpa using he)]
      refine ⟨r, hr, hiff.trans ⟨fun h k hk => ?_, fun h k hk => ?_⟩⟩
      · cases k with
        | zero => simpa [b1, b2] using he
        | succ k =>
          have := h k (by omega)
          push_cast
          rwa [add_assoc, add_assoc, add_comm (1 : Int) k] at this
      · have := h (k + 1) (by omega)
        push_cast at this
        rwa [add_assoc, add_assoc, add_comm (1 : Int) k]
    · rw [if_neg (by simpa using he)]
      refine ⟨false, rfl, by simp, fun h => ?_⟩
      have := h 0 (by omega)
      simp only [Nat.cast_zero, add_zero, b1, b2] at this
      exact absurd (Outcome.ok.inj this) he

/-- C43 for equality, as far as it holds: contiguous views of the same shape that stay inside
their buffers compare equal exactly when they hold the same element at every contained index.
(Missing: views of different shapes, and strided views, see the two failures above.) -/
theorem C43_eq_partial [BEq T] [LawfulBEq T] (m1 m2 : List T) (ext : List Int) (b : Bounds) (hb : ofExtents ext = .ok b)
    (hp : ∀ n ∈ ext, 0 < n) (p q : Int) (h1 : 0 ≤ p ∧ p + ext.prod ≤ m1.length)
    (h2 : 0 ≤ q ∧ q + ext.prod ≤ m2.length) (same : Bool) (hsame : same = true → m1 = m2) :
    ∃ r, eqContiguous same m1 m2 ⟨some p, b⟩ ⟨some q, b⟩ = .ok r ∧
      (r = true ↔ ∀ idx, Contained idx ext → View.get m1 ⟨some p, b⟩ idx = View.get m2 ⟨some q, b⟩ idx) := by
  rw [ofExtents_ok] at hb
  obtain rfl := Outcome.ok.inj hb
  have hpos := prod_pos' hp
  have hget : ∀ (m : List T) (a : Int) idx, View.get m ⟨some a, ⟨ext, suffixProducts ext⟩⟩ idx =
      load m (a + rankOf idx ext) := by
    intro m a idx
    simp [View.get, View.addr, linearize_eq, linLoop_rank]
  simp only [hget]
  rw [eqContiguous, if_pos (by simp)]
  by_cases hc : ((some p : Option Int) == some q && (same || (some p : Option Int).isNone)) = true
  · refine ⟨true, by simp only [hc]; rfl, ?_⟩
    simp only [Option.isNone_some, Bool.or_false, Bool.and_eq_true, beq_iff_eq, Option.some.injEq] at hc
    simp only [true_iff]
    intro idx _
    rw [hc.1, hsame hc.2]
  · simp only [hc]
    obtain ⟨r, hr, hiff⟩ := equalPtr_spec m1 m2 p q ext.prod.toNat h1.1 h2.1 (by omega) (by omega)
    refine ⟨r, by simp only [size_eq]; exact hr, hiff.trans ⟨fun h idx hidx => ?_, fun h k hk => ?_⟩⟩
    · have hb := rank_bounds hidx
      have := h (rankOf idx ext).toNat (by omega)
      rwa [show ((rankOf idx ext).toNat : Int) = rankOf idx ext by omega] at this
    · obtain ⟨idx, hidx, hr⟩ := rank_surj ext hp k (by omega) (by omega)
      rw [← hr]
      exact h idx hidx

example : eqContiguous false [9, 1, 2, 3] [1, 2, 3] ⟨some 1, ⟨[3], [1]⟩⟩ ⟨some 0, ⟨[3], [1]⟩⟩ = .ok true ∧
    eqContiguous false [9, 1, 2, 3] [1, 2, 4] ⟨some 1, ⟨[3], [1]⟩⟩ ⟨some 0, ⟨[3], [1]⟩⟩ = .ok false := by decide

theorem get_ok (mem : List T) (v : View) (hb : InBuffer mem.length v) (x : List Int) (hx : Contained x v.bnd.ext) :
    ∃ a, v.get mem x = .ok a := by
  obtain ⟨p, h1, h2, h3⟩ := hb x hx
  obtain ⟨h4, h5⟩ := load_ok mem p h2 h3
  exact ⟨_, by rw [View.get, h1]; exact h5⟩

theorem equalLoop_spec [BEq T] [LawfulBEq T] (m1 m2 : List T) (v w : View) (ext : List Int) (hr : ext ≠ [])
    (hv : v.bnd.ext = ext) (hw : w.bnd.ext = ext) (b1 : InBuffer m1.length v) (b2 : InBuffer m2.length w) (k : Nat) :
    ∀ x, Contained x ext → ext.prod - rankOf x ext = k → ∀ fuel, k < fuel →
    ∃ r, equalLoop m1 m2 v w x x fuel = .ok r ∧
      (r = true ↔ ∀ y, Contained y ext → rankOf x ext ≤ rankOf y ext → v.get m1 y = w.get m2 y) := by
  induction k with
  | zero => intro x hx h; have := rank_bounds hx; omega
  | succ k ih =>
    intro x hx hk fuel hf
    cases fuel with
    | zero => omega
    | succ fuel =>
      have hne : idxEq x (endIdx v.bnd.ext) = false := by
        rw [idxEq, beq_eq_false_iff_ne, endIdx, hv]
        intro e
        rw [e] at hx
        have h1 := idxGe_contained hx hr
        rw [idxGe_self] at h1
        exact absurd h1 (by simp)
      obtain ⟨a, ha⟩ := get_ok m1 v b1 x (by rw [hv]; exact hx)
      obtain ⟨c, hc⟩ := get_ok m2 w b2 x (by rw [hw]; exact hx)
      rw [equalLoop, hne, ha, hc, hv, hw]
      simp only [Outcome.bind_ok, Bool.false_eq_true, if_false]
      by_cases hac : a = c
      · rw [if_pos (by simpa using hac)]
        rcases inc_spec hx with ⟨h1, h2⟩ | ⟨h1, h2⟩
        · obtain ⟨r, hr1, hr2⟩ := ih (inc ext x) h1 (by rw [h2]; push_cast at hk; omega) fuel (by omega)
          refine ⟨r, hr1, hr2.trans ⟨fun h y hy hle => ?_, fun h y hy hle => h y hy (by omega)⟩⟩
          rcases lt_or_eq_of_le hle with hlt | heq
          · exact h y hy (by omega)
          · rw [← rank_inj hx hy heq, ha, hc, hac]
        · have hk0 : k = 0 := by rw [h2] at hk; push_cast at hk; omega
          cases fuel with
          | zero => omega
          | succ fuel =>
            refine ⟨true, ?_, ?_⟩
            · rw [h1, equalLoop, hv]
              simp [idxEq, endIdx]
            · simp only [true_iff]
              intro y hy hle
              have := rank_bounds hy
              rw [← rank_inj hx hy (by omega), ha, hc, hac]
      · rw [if_neg (by simpa using hac)]
        refine ⟨false, rfl, by simp, fun h => ?_⟩
        have := h x hx (le_refl _)
        rw [ha, hc] at this
        exact absurd (Outcome.ok.inj this) hac

/-- C43 for equality of strided views, as far as it holds: strided views with the same positive
extents (whatever their strides), inside their buffers and not starting at the same address,
compare equal exactly when they hold the same element at every contained index.  (Missing: a
common start address, and different extents with the same number of elements.) -/
theorem C43_eq_strided_partial [BEq T] [LawfulBEq T] (m1 m2 : List T) (v w : View) (ext : List Int) (hr : ext ≠ [])
    (hp : ∀ n ∈ ext, 0 < n) (hv : v.bnd.ext = ext) (hw : w.bnd.ext = ext) (b1 : InBuffer m1.length v)
    (b2 : InBuffer m2.length w) (same : Bool) (hd : v.data ≠ w.data ∨ same = false) (fuel : Nat) (hf : ext.prod < fuel) :
    ∃ r, eqStrided fuel same m1 m2 v w = .ok r ∧
      (r = true ↔ ∀ idx, Contained idx ext → v.get m1 idx = w.get m2 idx) := by
  have hz := contained_zero hp
  have hz0 := rank_zero ext
  have hpos := prod_pos' hp
  obtain ⟨r, h1, h2⟩ := equalLoop_spec m1 m2 v w ext hr hv hw b1 b2 ext.prod.toNat _ hz (by omega) fuel (by omega)
  refine ⟨r, ?_, h2.trans ⟨fun h y hy => h y hy (by rw [hz0]; exact (rank_bounds hy).1), fun h y hy _ => h y hy⟩⟩
  have hsome : v.data.isNone = false := by
    obtain ⟨p, hp, _⟩ := b1 _ (by rw [hv]; exact hz)
    cases hvd : v.data with
    | none => simp [View.addr, hvd] at hp
    | some _ => rfl
  rw [eqStrided, if_pos (by simp [size_eq, hv, hw]), hsome]
  have hcond : (v.data == w.data && (same || false)) = false := by
    rcases hd with hd | hd
    · simp [hd]
    · simp [hd]
  rw [hcond, hv, hw, beginIdx]
  simp only [Bool.false_eq_true, if_false]
  exact h1

example : eqStrided 9 true [1, 2, 1, 2] [1, 2, 1, 2] ⟨some 0, ⟨[2], [1]⟩⟩ ⟨some 2, ⟨[2], [1]⟩⟩ = .ok true ∧
    eqStrided 9 true [1, 2, 1, 2] [1, 2, 1, 2] ⟨some 0, ⟨[2], [1]⟩⟩ ⟨some 1, ⟨[2], [2]⟩⟩ = .ok false := by decide

/-- C43 fails for strided views of no elements: comparing two of them reads memory (here past
the end of an empty buffer), because iterating a zero extent yields indices, see
`C40_zero_extent_fails` -/
theorem C43_eq_empty_fails :
    let v : View := ⟨some 0, ⟨[0, 3], [3, 1]⟩⟩
    v.bnd.size = 0 ∧ eqStrided 9 false ([] : List Nat) [] v v = .ub := by decide

/-- the elements of a contiguous view in storage order -/
def slab (mem : List T) (p n : Nat) : List T := (mem.drop p).take n

/-- C43: `<` on contiguous views inside their buffers is the lexicographic order of their
elements, hence a strict weak order whenever the element comparison is a strict total order -/
theorem C43_lt (m1 m2 : List Int) (v w : View) (p q : Nat) (hv : v.data = some (p : Int)) (hw : w.data = some (q : Int))
    (h1 : p + v.bnd.size ≤ m1.length) (h2 : q + w.bnd.size ≤ m2.length) :
    ltContiguous (fun x y => decide (x < y)) m1 m2 v w =
      .ok (decide (slab m1 p v.bnd.size.toNat < slab m2 q w.bnd.size.toNat)) := by
  rw [ltContiguous, hv, hw]
  simp only
  have g1 : v.bnd.size.toNat = 0 ∨ p + v.bnd.size.toNat ≤ m1.length := by omega
  have g2 : w.bnd.size.toNat = 0 ∨ q + w.bnd.size.toNat ≤ m2.length := by omega
  clear h1 h2 hv hw
  generalize v.bnd.size.toNat = n at g1 ⊢
  generalize w.bnd.size.toNat = k at g2 ⊢
  induction n generalizing p q k with
  | zero =>
    cases k with
    | zero => simp [lexPtr, slab]
    | succ k =>
      have : q < m2.length := by omega
      rw [lexPtr, slab, slab, List.take_zero, List.drop_eq_getElem_cons this, List.take_succ_cons]
      simp
  | succ n ih =>
    cases k with
    | zero => simp [lexPtr, slab]
    | succ k =>
      have l1 : p < m1.length := by omega
      have l2 : q < m2.length := by omega
      obtain ⟨a1, b1⟩ := load_ok m1 p (by omega) (by exact_mod_cast l1)
      obtain ⟨a2, b2⟩ := load_ok m2 q (by omega) (by exact_mod_cast l2)
      have e1 : slab m1 p (n + 1) = m1[p] :: slab m1 (p + 1) n := by
        rw [slab, List.drop_eq_getElem_cons l1, List.take_succ_cons]; rfl
      have e2 : slab m2 q (k + 1) = m2[q] :: slab m2 (q + 1) k := by
        rw [slab, List.drop_eq_getElem_cons l2, List.take_succ_cons]; rfl
      rw [lexPtr, b1, b2, e1, e2]
      simp only [Outcome.bind_ok, Int.toNat_natCast, decide_eq_true_eq, List.cons_lt_cons_iff]
      have := ih (p + 1) (q + 1) (by omega) k (by omega)
      push_cast at this
      rw [this]
      rcases lt_trichotomy m1[p] m2[q] with h | h | h
      · simp [h]
      · simp [h]
      · simp [h, not_lt.mpr h.le, h.ne']

example : ltContiguous (fun x y => decide (x < y)) [1, 2, 3] [1, 3] ⟨some 0, ⟨[3], [1]⟩⟩ ⟨some 0, ⟨[2], [1]⟩⟩ =
    .ok true := by decide

theorem equalPtr_slab [DecidableEq T] (m1 m2 : List T) (n p q : Nat) (h1 : n = 0 ∨ p + n ≤ m1.length)
    (h2 : n = 0 ∨ q + n ≤ m2.length) :
    equalPtr m1 m2 p q n = .ok (decide (slab m1 p n = slab m2 q n)) := by
  induction n generalizing p q with
  | zero => simp [equalPtr, slab]
  | succ n ih =>
    have l1 : p < m1.length := by omega
    have l2 : q < m2.length := by omega
    obtain ⟨a1, b1⟩ := load_ok m1 p (by omega) (by exact_mod_cast l1)
    obtain ⟨a2, b2⟩ := load_ok m2 q (by omega) (by exact_mod_cast l2)
    have e1 : slab m1 p (n + 1) = m1[p] :: slab m1 (p + 1) n := by
      rw [slab, List.drop_eq_getElem_cons l1, List.take_succ_cons]; rfl
    have e2 : slab m2 q (n + 1) = m2[q] :: slab m2 (q + 1) n := by
      rw [slab, List.drop_eq_getElem_cons l2, List.take_succ_cons]; rfl
    rw [equalPtr, b1, b2, e1, e2]
    simp only [Outcome.bind_ok, Int.toNat_natCast, beq_iff_eq, List.cons.injEq]
    have := ih (p + 1) (q + 1) (by omega) (by omega)
    push_cast at this
    rw [this]
    by_cases h : m1[p] = m2[q] <;> simp [h]

/-- C43, exactly what `==` on contiguous views means, for any two shapes: the views hold the
same elements in storage order (so in particular the same number of them); the extents play no
other part, which is why `C43_eq_shape_fails`. -/
theorem C43_eq_contiguous_exact [DecidableEq T] (m1 m2 : List T) (v w : View) (p q : Nat)
    (hv : v.data = some (p : Int)) (hw : w.data = some (q : Int))
    (s1 : 0 ≤ v.bnd.size) (s2 : 0 ≤ w.bnd.size)
    (h1 : p + v.bnd.size ≤ m1.length) (h2 : q + w.bnd.size ≤ m2.length)
    (same : Bool) (hsame : same = true → m1 = m2) :
    eqContiguous same m1 m2 v w =
      .ok (decide (slab m1 p v.bnd.size.toNat = slab m2 q w.bnd.size.toNat)) := by
  rw [eqContiguous]
  by_cases hs : v.bnd.size = w.bnd.size
  · rw [if_pos (by simpa using hs), hv, hw, ← hs]
    by_cases hc : ((some (p : Int) : Option Int) == some (q : Int) && (same || (some (p : Int) : Option Int).isNone)) = true
    · rw [if_pos hc]
      simp only [Option.isNone_some, Bool.or_false, Bool.and_eq_true, beq_iff_eq, Option.some.injEq,
        Nat.cast_inj] at hc
      rw [hc.1, hsame hc.2, decide_eq_true rfl]
    · rw [if_neg hc]
      exact equalPtr_slab m1 m2 _ p q (by omega) (by omega)
  · rw [if_neg (by simpa using hs), decide_eq_false]
    intro h
    have := congrArg List.length h
    simp only [slab, List.length_take, List.length_drop] at this
    omega

example : eqContiguous false [9, 1, 2, 3, 4] [1, 2, 3, 4] ⟨some 1, ⟨[2, 2], [2, 1]⟩⟩ ⟨some 0, ⟨[4], [1]⟩⟩ = .ok true ∧
    eqContiguous false [9, 1, 2, 3, 4] [1, 2, 3, 4] ⟨some 1, ⟨[2, 2], [2, 1]⟩⟩ ⟨some 0, ⟨[3], [1]⟩⟩ = .ok false := by
  decide

/-- C43: views with different numbers of elements never compare equal, contiguous or strided,
and no element is read to find out. -/
theorem C43_eq_size [BEq T] (m1 m2 : List T) (v w : View) (same : Bool) (fuel : Nat)
    (h : v.bnd.size ≠ w.bnd.size) :
    eqContiguous same m1 m2 v w = .ok false ∧ eqStrided fuel same m1 m2 v w = .ok false := by
  simp [eqContiguous, eqStrided, h]

example : (⟨some 0, ⟨[2, 3], [8, 2]⟩⟩ : View).bnd.size ≠ (⟨some 0, ⟨[2, 2], [8, 2]⟩⟩ : View).bnd.size := by decide

end Verif.ArrayView
