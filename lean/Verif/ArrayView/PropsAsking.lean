import Verif.ArrayView.Asking
import Verif.ArrayView.PropsCopy

/-!
# C104: what one kind of view can be asked, the others can; C105: views of arrays and containers stay inside
-/

namespace Verif.ArrayView

variable {T : Type}

/-! ## C104: sections -/

/-- **C104** Which sections can be asked for: a static view gives no section with an origin, and a dynamic one none without -/
theorem C104_section_iff (k : Kind) (v : View) (o bn : Idx) :
    ((∃ r, askSection k v = some r) ↔ k ≠ .dynamic) ∧ ((∃ r, askSectionFrom k v o = some r) ↔ k ≠ .static) ∧
    ((∃ r, askSectionOf k v o bn = some r) ↔ k ≠ .static) := by
  cases k <;> simp [askSection, askSectionFrom, askSectionOf, constructs, viewCtors, passAll, passes, sectionArgs]

example : askSectionOf .dynamic ⟨some 0, ⟨[2, 3], [3, 1]⟩⟩ [0, 1] [2, 2] = some (.ok ⟨some 1, ⟨[2, 2], [3, 1]⟩⟩) ∧
    askSectionOf .static ⟨some 0, ⟨[2, 3], [3, 1]⟩⟩ [0, 1] [2, 2] = none ∧
    askSection .static ⟨some 0, ⟨[2, 3], [3, 1]⟩⟩ = some (.ok ⟨some 0, ⟨[2, 3], [3, 1]⟩⟩) ∧
    askSection .dynamic ⟨some 0, ⟨[2, 3], [3, 1]⟩⟩ = none := by decide

/-- **C104** fails for static views: a section that a dynamic view of the same elements gives is not to be had from the static one -/
theorem C104_section_fails : ∃ (v : View) (o bn : Idx) (w : View), askSectionOf .dynamic v o bn = some (.ok w) ∧
    askSectionOf .static v o bn = none :=
  ⟨⟨some 0, ⟨[2, 3], [3, 1]⟩⟩, [0, 1], [2, 2], ⟨some 1, ⟨[2, 2], [3, 1]⟩⟩, by decide, by decide⟩

/-- **C104** Where a section can be asked for, its elements are those of the view from the origin on -/
theorem C104_section_elements (k : Kind) (v w : View) (o bn : Idx) (h1 : o.length = v.bnd.ext.length)
    (h2 : bn.length = v.bnd.ext.length) (mem : List T) :
    (askSection k v = some (.ok w) → w.bnd.ext = v.bnd.ext ∧ ∀ idx, w.get mem idx = v.get mem idx) ∧
    (askSectionFrom k v o = some (.ok w) → w.bnd.ext = idxSub v.bnd.ext o ∧
      ∀ idx, Contained idx w.bnd.ext → Contained (idxAdd o idx) v.bnd.ext ∧ w.get mem idx = v.get mem (idxAdd o idx)) ∧
    (askSectionOf k v o bn = some (.ok w) → w.bnd.ext = bn ∧
      ∀ idx, Contained idx w.bnd.ext → Contained (idxAdd o idx) v.bnd.ext ∧ w.get mem idx = v.get mem (idxAdd o idx)) := by
  have key : ∀ bn : Idx, bn.length = v.bnd.ext.length → v.section o bn = .ok w → w.bnd.ext = bn ∧
      ∀ idx, Contained idx w.bnd.ext → Contained (idxAdd o idx) v.bnd.ext ∧ w.get mem idx = v.get mem (idxAdd o idx) := by
    intro bn h2 hw
    obtain ⟨a, b, c⟩ := C41_section v w o bn h1 h2 hw
    refine ⟨a, fun idx hi => ⟨c idx (a ▸ hi), ?_⟩⟩
    have hl : idx.length = o.length := by rw [hi.len, a, h2, h1]
    simp only [View.get, b idx hl]
  refine ⟨fun h => ?_, fun h => ?_, fun h => ?_⟩
  · unfold askSection at h
    split at h
    · obtain rfl := Outcome.ok.inj (Option.some.inj h)
      exact ⟨rfl, fun idx => rfl⟩
    · cases h
  · unfold askSectionFrom at h
    split at h
    · have h' := Option.some.inj h
      rw [C41_section_from v o h1] at h'
      exact key _ (by simp [idxSub, h1]) h'
    · cases h
  · unfold askSectionOf at h
    split at h
    · exact key bn h2 (Option.some.inj h)
    · cases h

example : askSectionFrom .strided ⟨some 0, ⟨[2, 3], [3, 1]⟩⟩ [1, 1] = some (.ok ⟨some 4, ⟨[1, 2], [3, 1]⟩⟩) ∧
    View.get [10, 11, 12, 13, 14, 15] ⟨some 4, ⟨[1, 2], [3, 1]⟩⟩ [0, 1] = .ok 15 := by decide

/-! ## C104: rows -/

/-- **C104** `v[i]` is a row of the view exactly if it has more than one dimension and is not static; the elements of a row are
those of the view -/
theorem C104_row_iff (k : Kind) (v : View) (i : Nat) :
    ((∃ r, askRow k v i = some r) ↔ 1 < v.rank ∧ k ≠ .static) ∧
    ∀ w, v.bnd.str.length = v.rank → (k ≠ .strided → ofExtents v.bnd.ext = .ok v.bnd) → askRow k v i = some (.ok w) →
      w.bnd.ext = v.bnd.ext.tail ∧ ∀ (mem : List T) idx, w.get mem idx = v.get mem ((i : Int) :: idx) := by
  constructor
  · unfold askRow
    by_cases h : v.rank ≤ 1
    · simp [h]
    · cases k <;> simp [h, slicedMembers, Nat.lt_of_not_le h]
  · intro w hl hc h
    unfold askRow at h
    by_cases hr : v.rank ≤ 1
    · simp [hr] at h
    · rw [if_neg hr] at h
      obtain ⟨r, hr'⟩ : ∃ r, v.rank = r + 1 := ⟨v.rank - 1, by omega⟩
      have hne : v.bnd.ext ≠ [] := by
        intro e
        simp [View.rank, e] at hr'
      cases k with
      | strided =>
        obtain rfl := Outcome.ok.inj (Option.some.inj h)
        refine ⟨rfl, fun mem idx => ?_⟩
        simp only [View.get, (C41_slice v r ⟨hr', by omega⟩ i idx).2.2]
      | dynamic =>
        obtain ⟨w', b', h1, h2, h3, h4, h5⟩ := C41_slice_contiguous v.bnd.ext v.bnd (hc (by simp)) hne v.data i
        have h' := Option.some.inj h
        obtain rfl := Outcome.ok.inj (h1.symm.trans h')
        refine ⟨?_, fun mem idx => by simp only [View.get, h5]⟩
        rw [ofExtents_ok] at h2
        rw [h3, ← Outcome.ok.inj h2]
      | static => simp [slicedMembers] at h

example : askRow .dynamic ⟨some 0, ⟨[2, 3], [3, 1]⟩⟩ 1 = some (.ok ⟨some 3, ⟨[3], [1]⟩⟩) ∧
    askRow .static ⟨some 0, ⟨[2, 3], [3, 1]⟩⟩ 1 = none := by decide

/-- **C104** fails for static views of more than one dimension: they have no rows -/
theorem C104_row_fails : ∃ (v w : View), askRow .dynamic v 1 = some (.ok w) ∧ askRow .strided v 1 = some (.ok w) ∧
    askRow .static v 1 = none :=
  ⟨⟨some 0, ⟨[2, 3], [3, 1]⟩⟩, ⟨some 3, ⟨[3], [1]⟩⟩, by decide, by decide, by decide⟩

/-- **C104** The checked `slice(i)`: a row of a view that is not static if it has more than one dimension, an element of a static
view if it has one.  Out of range, the former throws `std::out_of_range` and the latter ends the program -/
theorem C104_slice_iff (k : Kind) (mem : List T) (v : View) (i : Nat) (hr : 1 ≤ v.rank) :
    ((∃ r, askSlice k mem v i = some r) ↔ (1 < v.rank ↔ k ≠ .static)) ∧
    ∀ r, askSlice k mem v i = some r →
      (v.bnd.ext.headD 0 ≤ i → r = if k = .static then .throws "terminate" else .outOfRange) ∧
      ((i : Int) < v.bnd.ext.headD 0 → if k = .static then ∀ x, (r = .ok (.elem x) ↔ v.get mem [(i : Int)] = .ok x)
        else ∀ w, (r = .ok (.view w) ↔ askRow k v i = some (.ok w))) := by
  constructor
  · unfold askSlice
    by_cases h : v.rank = 1
    · cases k <;> simp [h]
    · have h1 : ¬ v.rank ≤ 1 := by omega
      cases k <;> simp [h, h1, askRow, slicedMembers, Nat.lt_of_not_le h1]
  · intro r h
    unfold askSlice at h
    cases k with
    | strided =>
      by_cases h1 : v.rank ≤ 1
      · simp [h1] at h
      · simp only [h1, if_false, Option.some.injEq] at h
        subst h
        refine ⟨fun hi => by simp only [View.slice, ge_iff_le, hi, if_true]; rfl, fun hi => ?_⟩
        intro w
        simp only [View.slice, ge_iff_le, not_le.mpr hi, if_false, askRow, h1]
        simp
    | dynamic =>
      by_cases h1 : v.rank ≤ 1
      · simp [h1] at h
      · simp only [h1, if_false, Option.some.injEq] at h
        subst h
        refine ⟨fun hi => by simp only [View.sliceC, ge_iff_le, hi, if_true]; rfl, fun hi => ?_⟩
        intro w
        simp only [View.sliceC, ge_iff_le, not_le.mpr hi, if_false, askRow, h1]
        cases v.sliceContiguous i <;> simp
    | static =>
      by_cases h1 : v.rank = 1
      · simp only [h1, if_true, Option.some.injEq] at h
        subst h
        refine ⟨fun hi => by simp only [ge_iff_le, hi, if_true]; rfl, fun hi => ?_⟩
        intro x
        simp only [ge_iff_le, not_le.mpr hi, if_false]
        cases hg : v.get mem [(i : Int)] <;> simp [terminates]
      · have h2 : ¬ v.rank ≤ 1 := by omega
        simp [h1, askRow, h2, slicedMembers] at h

example : askSlice .dynamic [10, 11, 12, 13] ⟨some 0, ⟨[2, 2], [2, 1]⟩⟩ 1 = some (.ok (.view ⟨some 2, ⟨[2], [1]⟩⟩)) ∧
    askSlice .static [10, 11, 12, 13] ⟨some 0, ⟨[4], [1]⟩⟩ 2 = some (.ok (.elem 12)) ∧
    askSlice .static [10, 11, 12, 13] ⟨some 0, ⟨[4], [1]⟩⟩ 4 = some (.throws "terminate") ∧
    askSlice .dynamic [10, 11, 12, 13] ⟨some 0, ⟨[4], [1]⟩⟩ 2 = none := by decide

/-! ## C104: strides and extents, assignment -/

/-- **C104** `strides()` and `stride()` can be read exactly of a view that is not static, and give what the elements are apart -/
theorem C104_strides_iff (k : Kind) (v : View) :
    ((∃ s, askStrides k v = .ok s) ↔ k ≠ .static) ∧ ((∃ s, askStride k v = .ok s) ↔ k ≠ .static) ∧
    (∀ s p idx, askStrides k v = .ok s → v.data = some p → idx.length = s.length →
      v.addr idx = some (p + (List.zipWith (· * ·) idx s).sum)) ∧
    ∀ s st, askStrides k v = .ok s → askStride k v = .ok st → s ≠ [] → s.head? = some st := by
  have hlin : ∀ (idx s : List Int), linLoop 0 idx s = (List.zipWith (· * ·) idx s).sum := by
    intro idx
    induction idx with
    | nil => intro s; simp [linLoop]
    | cons i is ih =>
      intro s
      cases s with
      | nil => simp [linLoop]
      | cons a ss => rw [linLoop, linLoop_acc, ih]; simp
  refine ⟨by cases k <;> simp [askStrides], by cases k <;> simp [askStride], ?_, ?_⟩
  · intro s p idx hs hd hl
    have hs' : v.bnd.str = s := by cases k <;> simp_all [askStrides]
    simp [View.addr, hd, linearize_eq, hlin, hs']
  · intro s st hs hst hne
    have hs' : v.bnd.str = s := by cases k <;> simp_all [askStrides]
    have : v.bnd.str.headD 0 = st := by cases k <;> simp_all [askStride]
    rw [hs'] at this
    cases s with
    | nil => exact absurd rfl hne
    | cons a s => simpa using this

example : askStrides .dynamic ⟨some 0, ⟨[2, 3], [3, 1]⟩⟩ = .ok [3, 1] ∧ askStride .dynamic ⟨some 0, ⟨[2, 3], [3, 1]⟩⟩ = .ok 3 := by decide

/-- **C104** fails for static views: reading their strides is undefined -/
theorem C104_strides_fails : ∃ v : View, askStrides .dynamic v = .ok [3, 1] ∧ askStrides .static v = .ub ∧ askStride .static v = .ub :=
  ⟨⟨some 0, ⟨[2, 3], [3, 1]⟩⟩, by decide, by decide, by decide⟩

/-- **C104** `extent<d>()` is the extent for every dimension there is, and is rejected for every other -/
theorem C104_extent (v : View) (hn : ∀ n ∈ v.bnd.ext, 0 ≤ n ∧ n < 2 ^ 64) (d : Nat) (r : Option (Outcome Int)) :
    askExtent d v = r ↔ (∃ h : d < v.bnd.ext.length, r = some (.ok v.bnd.ext[d])) ∨ v.bnd.ext.length ≤ d ∧ r = none := by
  unfold askExtent
  by_cases h : d < v.bnd.ext.length
  · have := hn v.bnd.ext[d] (List.getElem_mem h)
    simp only [List.getElem?_eq_getElem h, Int.emod_eq_of_lt this.1 this.2]
    constructor
    · exact fun e => .inl ⟨h, e.symm⟩
    · rintro (⟨_, e⟩ | ⟨e, _⟩)
      · exact e.symm
      · omega
  · simp only [List.getElem?_eq_none (Nat.le_of_not_lt h)]
    constructor
    · exact fun e => .inr ⟨by omega, e.symm⟩
    · rintro (⟨e, _⟩ | ⟨_, e⟩)
      · exact absurd e h
      · exact e.symm

example : askExtent 1 ⟨some 0, ⟨[2, 3], [3, 1]⟩⟩ = some (.ok 3) ∧ askExtent 2 ⟨some 0, ⟨[2, 3], [3, 1]⟩⟩ = none := by decide

/-- **C104** Assigning a view to one of const elements is defined exactly for views that are not static, and then shows the same
elements -/
theorem C104_assign_const_iff (k : Kind) (v : View) :
    ((∃ w, assignConst k v = .ok w) ↔ k ≠ .static) ∧ (assignConst k v = .ub ↔ k = .static) ∧
    ∀ w, assignConst k v = .ok w → w.bnd.ext = v.bnd.ext ∧ ∀ (mem : List T) idx, w.get mem idx = v.get mem idx := by
  refine ⟨by cases k <;> simp [assignConst], by cases k <;> simp [assignConst], fun w h => ?_⟩
  have : w = v := by cases k <;> simp_all [assignConst]
  exact this ▸ ⟨rfl, fun _ _ => rfl⟩

example : assignConst .strided ⟨some 0, ⟨[2, 3], [6, 2]⟩⟩ = .ok ⟨some 0, ⟨[2, 3], [6, 2]⟩⟩ := by decide

/-- **C104** fails for static views: assigning one to a static view of const elements is undefined -/
theorem C104_assign_const_fails : ∃ v : View, assignConst .dynamic v = .ok v ∧ assignConst .static v = .ub :=
  ⟨⟨some 0, ⟨[2, 3], [3, 1]⟩⟩, by decide, by decide⟩

/-! ## C104: one kind of view from another -/

/-- **C104** Which views can be made from which.  `K w = v;` needs the same type, or a static `v` of the same rank; `K w(v);` can
besides make a strided view from a dynamic one of the same rank, and a view of rank one, or a static one, from any named view -/
theorem C104_convert_iff (t : Target) (k : Kind) (src : Source) (v : View) :
    ((∃ r, convert false t k src v = some r) ↔ t.kind = k ∧ (if k = .static then t.ext = v.bnd.ext else t.ext.length = v.rank) ∨
      k = .static ∧ t.kind ≠ .static ∧ t.ext.length = v.rank) ∧
    ((∃ r, convert true t k src v = some r) ↔ (∃ r, convert false t k src v = some r) ∨
      k = .dynamic ∧ t.kind = .strided ∧ t.ext.length = v.rank ∨ src ≠ .rvalue ∧ (t.kind = .static ∨ t.ext.length = 1)) := by
  constructor
  · simp only [convert, via]
    cases src <;> cases k <;> rcases t with ⟨tk, te⟩ <;> cases tk <;>
      by_cases hl : te.length = v.rank <;>
      by_cases he : te = v.bnd.ext <;>
      simp_all [viaOrder, List.find?, viaOk, sameType, makeVia]
  · simp only [convert, via]
    cases src <;> cases k <;> rcases t with ⟨tk, te⟩ <;> cases tk <;>
      by_cases hl : te.length = v.rank <;> by_cases h1 : te.length = 1 <;>
      by_cases he : te = v.bnd.ext <;>
      simp_all [viaOrder, List.find?, viaOk, sameType, makeVia]

/-- every way of making a view is met -/
example : via false ⟨.dynamic, [2, 3]⟩ .static .lvalue ⟨some 0, ⟨[2, 3], [3, 1]⟩⟩ = some .conv ∧
    via true ⟨.dynamic, [6]⟩ .static .lvalue ⟨some 0, ⟨[2, 3], [3, 1]⟩⟩ = some .cont ∧
    via true ⟨.strided, [2, 3]⟩ .dynamic .rvalue ⟨some 0, ⟨[2, 3], [3, 1]⟩⟩ = some .oper ∧
    via false ⟨.strided, [2, 3]⟩ .dynamic .rvalue ⟨some 0, ⟨[2, 3], [3, 1]⟩⟩ = none ∧
    via true ⟨.static, [2, 2]⟩ .dynamic .lvalue ⟨some 0, ⟨[2, 3], [3, 1]⟩⟩ = some .cont := by decide

theorem rowMajor_rank {ext : List Int} {L : List Idx} (hL : RowMajor ext L) (n : Nat) (h : n < L.length) :
    Contained L[n] ext ∧ rankOf L[n] ext = n ∧ (n : Int) < ext.prod := by
  have hc : Contained L[n] ext := (hL.1 _).mp (List.getElem_mem h)
  obtain ⟨h1, h2⟩ := hL.getElem hc.pos
  have := prod_pos' hc.pos
  refine ⟨hc, ?_, by omega⟩
  rw [h2 n h]
  exact (nth_contained hc.pos (by omega)).2

/-- what is made from a contiguous view is contiguous, at the same place, and not larger -/
theorem convert_contiguous (direct : Bool) (t : Target) (k : Kind) (src : Source) (v w : View) (hk : k ≠ .strided)
    (hv : v.bnd.str = suffixProducts v.bnd.ext) (h : convert direct t k src v = some (.ok w)) :
    w.data = v.data ∧ w.bnd.str = suffixProducts w.bnd.ext ∧
      (w.bnd.ext = v.bnd.ext ∨ w.bnd.ext = [v.bnd.ext.prod] ∨ t.kind = .static ∧ w.bnd.ext = t.ext ∧ t.ext.prod ≤ v.bnd.ext.prod) := by
  simp only [convert] at h
  rcases hvia : via direct t k src v with _ | c
  · simp [hvia] at h
  · rw [hvia] at h
    have hok : viaOk direct t k src v c = true := List.find?_some hvia
    cases c with
    | copy =>
      simp only [makeVia, Option.some.injEq, Outcome.ok.injEq] at h
      exact h ▸ ⟨rfl, hv, .inl rfl⟩
    | conv =>
      rcases t with ⟨tk, te⟩
      cases tk with
      | strided =>
        simp only [makeVia, Option.some.injEq, Outcome.ok.injEq] at h
        exact h ▸ ⟨rfl, hv, .inl rfl⟩
      | dynamic =>
        simp only [makeVia, toDynamic, ofExtents_ok, Outcome.bind_ok, Option.some.injEq, Outcome.ok.injEq] at h
        exact h ▸ ⟨rfl, rfl, .inl rfl⟩
      | static => simp [viaOk] at hok
    | cont =>
      rcases t with ⟨tk, te⟩
      cases tk with
      | static =>
        simp only [makeVia, ofExtents_ok, Outcome.bind_ok, size_eq, Option.some.injEq] at h
        by_cases hle : te.prod ≤ v.bnd.ext.prod
        · simp only [ge_iff_le, hle, decide_true, Outcome.assert_true, Outcome.bind_ok, Outcome.ok.injEq] at h
          exact h ▸ ⟨rfl, rfl, .inr (.inr ⟨rfl, rfl, hle⟩)⟩
        · simp [hle] at h
      | strided =>
        simp only [makeVia, flatten, ofExtents_ok, size_eq, Outcome.bind_ok, Option.some.injEq, Outcome.ok.injEq] at h
        exact h ▸ ⟨rfl, rfl, .inr (.inl rfl)⟩
      | dynamic =>
        simp only [makeVia, flatten, ofExtents_ok, size_eq, Outcome.bind_ok, Option.some.injEq, Outcome.ok.injEq] at h
        exact h ▸ ⟨rfl, rfl, .inr (.inl rfl)⟩
    | oper =>
      cases k with
      | strided => exact absurd rfl hk
      | dynamic =>
        simp only [makeVia, Option.some.injEq, Outcome.ok.injEq] at h
        exact h ▸ ⟨rfl, hv, .inl rfl⟩
      | static =>
        rcases t with ⟨tk, te⟩
        cases tk <;> simp [makeVia, constructs, viewCtors, passAll, passes] at h

/-- **C104** A view made from a dynamic or a static one shows its elements in the same row-major order, and no others -/
theorem C104_convert_elements_partial (direct : Bool) (t : Target) (k : Kind) (src : Source) (v w : View) (hk : k ≠ .strided)
    (hv : ofExtents v.bnd.ext = .ok v.bnd) (hn : ∀ n ∈ v.bnd.ext, 0 ≤ n) (h : convert direct t k src v = some (.ok w))
    (mem : List T) (L M : List Idx) (hL : RowMajor w.bnd.ext L) (hM : RowMajor v.bnd.ext M) (n : Nat) (hl : n < L.length) :
    ∃ hm : n < M.length, w.get mem L[n] = v.get mem M[n] := by
  rw [ofExtents_ok] at hv
  have hs : v.bnd.str = suffixProducts v.bnd.ext := by rw [← Outcome.ok.inj hv]
  obtain ⟨h1, h2, h3⟩ := convert_contiguous direct t k src v w hk hs h
  obtain ⟨hc, hr, hlt⟩ := rowMajor_rank hL n hl
  have hle : (n : Int) < v.bnd.ext.prod := by
    rcases h3 with h3 | h3 | ⟨_, h3, h4⟩
    · rwa [h3] at hlt
    · rw [h3] at hlt; simpa using hlt
    · rw [h3] at hlt; omega
  have hp : ∀ m ∈ v.bnd.ext, 0 < m := by
    intro m hm
    rcases lt_or_eq_of_le (hn m hm) with h | h
    · exact h
    · subst h
      rw [prod_zero_of_mem hm] at hle
      omega
  have hmlen := (hM.getElem hp).1
  have hm : n < M.length := by omega
  refine ⟨hm, ?_⟩
  obtain ⟨_, hr', _⟩ := rowMajor_rank hM n hm
  have e1 : w.addr L[n] = w.data.map (· + (n : Int)) := by simp only [View.addr, linearize_eq, h2, linLoop_rank, hr]
  have e2 : v.addr M[n] = v.data.map (· + (n : Int)) := by simp only [View.addr, linearize_eq, hs, linLoop_rank, hr']
  simp only [View.get, e1, e2, h1]

example : convert true ⟨.static, [2, 2]⟩ .dynamic .lvalue ⟨some 0, ⟨[5], [1]⟩⟩ = some (.ok ⟨some 0, ⟨[2, 2], [2, 1]⟩⟩) ∧
    convert true ⟨.static, [2, 3]⟩ .dynamic .lvalue ⟨some 0, ⟨[5], [1]⟩⟩ = some .assertFail ∧
    convert false ⟨.strided, [2, 3]⟩ .static .lvalue ⟨some 0, ⟨[2, 3], [3, 1]⟩⟩ = some (.ok ⟨some 0, ⟨[2, 3], [3, 1]⟩⟩) := by decide

/-- **C104** fails for strided views: a dynamic or static view made from one forgets the strides -/
theorem C104_convert_elements_fails : ∃ (v w u : View) (mem : List Int), v.get mem [1] = .ok 13 ∧
    convert true ⟨.dynamic, [2]⟩ .strided .lvalue v = some (.ok w) ∧ w.get mem [1] = .ok 11 ∧
    convert true ⟨.static, [2]⟩ .strided .lvalue v = some (.ok u) ∧ u.get mem [1] = .ok 11 :=
  ⟨⟨some 0, ⟨[2], [3]⟩⟩, ⟨some 0, ⟨[2], [1]⟩⟩, ⟨some 0, ⟨[2], [1]⟩⟩, [10, 11, 12, 13], by decide, by decide, by decide, by decide, by decide⟩

/-- **C104** fails for copies of strided views of rank one: `strided_array_view<T,1> w(v);` forgets the strides if `v` is named and
not const; `w = v` and a const `v` keep them -/
theorem C104_copy_fails : ∃ (v w : View) (mem : List Int), convert true ⟨.strided, [2]⟩ .strided .lvalue v = some (.ok w) ∧
    v.get mem [1] = .ok 13 ∧ w.get mem [1] = .ok 11 ∧ convert false ⟨.strided, [2]⟩ .strided .lvalue v = some (.ok v) ∧
    convert true ⟨.strided, [2]⟩ .strided .constLvalue v = some (.ok v) :=
  ⟨⟨some 0, ⟨[2], [3]⟩⟩, ⟨some 0, ⟨[2], [1]⟩⟩, [10, 11, 12, 13], by decide, by decide, by decide, by decide, by decide⟩

/-- **C104** A static view of as many elements as a strided one shows the same ones exactly if every dimension of more than one
element is strided by the product of the extents after it -/
theorem C104_convert_strided_iff (ext : Idx) (v : View) (p : Int) (src : Source) (hs : src ≠ .rvalue) (hd : v.data = some p)
    (hp : ∀ n ∈ v.bnd.ext, 0 < n) (hl : v.bnd.str.length = v.bnd.ext.length) (he : ∀ n ∈ ext, 0 < n) (hsz : ext.prod = v.bnd.ext.prod) :
    ∃ w, convert true ⟨.static, ext⟩ .strided src v = some (.ok w) ∧ w.bnd.ext = ext ∧
      ((∀ L M, RowMajor ext L → RowMajor v.bnd.ext M → ∀ (n : Nat) (h : n < L.length) (h' : n < M.length), w.addr L[n] = v.addr M[n]) ↔
        ∀ d (h : d < v.bnd.ext.length), v.bnd.ext[d] = 1 ∨ v.bnd.str[d] = (v.bnd.ext.drop (d + 1)).prod) := by
  have hw : convert true ⟨.static, ext⟩ .strided src v = some (.ok ⟨some p, ⟨ext, suffixProducts ext⟩⟩) := by
    have hv : via true ⟨.static, ext⟩ .strided src v = some .cont := by
      cases src <;> simp_all [via, viaOrder, List.find?, viaOk, sameType]
    simp [convert, hv, makeVia, ofExtents_ok, size_eq, hsz, hd]
  refine ⟨_, hw, rfl, ?_⟩
  rw [← lin_rank_iff v.bnd.ext v.bnd.str hp hl]
  have hwa : ∀ idx, View.addr ⟨some p, ⟨ext, suffixProducts ext⟩⟩ idx = some (p + rankOf idx ext) := by
    intro idx; simp [View.addr, linearize_eq, linLoop_rank]
  have hva : ∀ idx, v.addr idx = some (p + linLoop 0 idx v.bnd.str) := by
    intro idx; simp [View.addr, linearize_eq, hd]
  constructor
  · intro h idx hi
    have hb := rank_bounds hi
    have hR := rowMajor_visits hp
    have hR' := rowMajor_visits he
    obtain ⟨h1, h2⟩ := hR.getElem hp
    obtain ⟨h1', h2'⟩ := hR'.getElem he
    have hk : (rankOf idx v.bnd.ext).toNat < (visits v.bnd.ext).length := by omega
    have hk' : (rankOf idx v.bnd.ext).toNat < (visits ext).length := by omega
    have := h _ _ hR' hR _ hk' hk
    rw [hwa, hva, (rowMajor_rank hR' _ hk').2.1] at this
    obtain ⟨a, b, _⟩ := rowMajor_rank hR _ hk
    have hidx : (visits v.bnd.ext)[(rankOf idx v.bnd.ext).toNat] = idx := rank_inj a hi (by omega)
    rw [hidx] at this
    have := Option.some.inj this
    omega
  · intro h L M hL hM n hn hn'
    obtain ⟨a, b, _⟩ := rowMajor_rank hM n hn'
    rw [hwa, hva, (rowMajor_rank hL n hn).2.1, h _ a, b]

example : convert true ⟨.static, [4]⟩ .strided .lvalue ⟨some 0, ⟨[2, 2], [2, 1]⟩⟩ = some (.ok ⟨some 0, ⟨[4], [1]⟩⟩) ∧
    convert true ⟨.static, [4]⟩ .strided .lvalue ⟨some 0, ⟨[2, 2], [3, 1]⟩⟩ = some (.ok ⟨some 0, ⟨[4], [1]⟩⟩) := by decide

/-- **C104** What a static view does not give, the dynamic view made from it does: every row and every section that fits -/
theorem C104_through_dynamic_partial (v : View) (hv : ofExtents v.bnd.ext = .ok v.bnd) (src : Source) (mem : List T) :
    ∃ d, convert false ⟨.dynamic, v.bnd.ext⟩ .static src v = some (.ok d) ∧
      (∀ i, 1 < v.rank → ∃ w, askRow .dynamic d i = some (.ok w) ∧ w.bnd.ext = v.bnd.ext.tail ∧
        ∀ idx, w.get mem idx = v.get mem ((i : Int) :: idx)) ∧
      ∀ o bn : Idx, Contained o v.bnd.ext → bn.length = v.bnd.ext.length →
        (∀ i (a : i < o.length) (b : i < bn.length) (c : i < v.bnd.ext.length), o[i] + bn[i] ≤ v.bnd.ext[i]) →
        ∃ w, askSectionOf .dynamic d o bn = some (.ok w) ∧ w.bnd.ext = bn ∧
          ∀ idx, Contained idx bn → w.get mem idx = v.get mem (idxAdd o idx) := by
  have hv' := hv
  rw [ofExtents_ok] at hv'
  have hd : convert false ⟨.dynamic, v.bnd.ext⟩ .static src v = some (.ok v) := by
    have h1 : via false ⟨.dynamic, v.bnd.ext⟩ .static src v = some .conv := by
      cases src <;> simp [via, viaOrder, List.find?, viaOk, sameType, View.rank]
    simp [convert, h1, makeVia, toDynamic, hv]
  refine ⟨v, hd, fun i hr => ?_, fun o bn ho hb hle => ?_⟩
  · have hne : v.bnd.ext ≠ [] := by
      intro e
      simp [View.rank, e] at hr
    obtain ⟨w, b', h1, h2, h3, h4, h5⟩ := C41_slice_contiguous v.bnd.ext v.bnd hv hne v.data i
    refine ⟨w, ?_, ?_, fun idx => by simp only [View.get, h5]⟩
    · rw [askRow, if_neg (by omega)]
      exact congrArg some h1
    · rw [ofExtents_ok] at h2
      rw [h3, ← Outcome.ok.inj h2]
  · obtain ⟨w, hw⟩ := (C41_section_accepted v o bn ho.len hb).mpr ⟨ho, hle⟩
    have hs : askSectionOf .dynamic v o bn = some (.ok w) := by
      simp [askSectionOf, constructs, viewCtors, passAll, passes, sectionArgs, hw]
    obtain ⟨a, b⟩ := (C104_section_elements .dynamic v w o bn ho.len hb mem).2.2 hs
    exact ⟨w, hs, a, fun idx hi => (b idx (a ▸ hi)).2⟩

example : convert false ⟨.dynamic, [2, 3]⟩ .static .lvalue ⟨some 0, ⟨[2, 3], [3, 1]⟩⟩ = some (.ok ⟨some 0, ⟨[2, 3], [3, 1]⟩⟩) := by decide

/-! ## C105: views of arrays and containers -/

/-- every element of the view is one of the `n` of a buffer, the one as many places from the start as the index is in row-major
order -/
def ShowsFirst (T : Type) (n : Nat) (w : View) : Prop :=
  ∀ mem : List T, mem.length = n → ∀ L, RowMajor w.bnd.ext L → ∀ (k : Nat) (h : k < L.length),
    ∃ x, mem[k]? = some x ∧ w.get mem L[k] = .ok x

theorem wholeView_ok (ext : Idx) : wholeView ext = .ok ⟨some 0, ⟨ext, suffixProducts ext⟩⟩ := by
  simp [wholeView, ofExtents_ok]

theorem ofArray_ok (ext : Idx) : ofArray ext = .ok ⟨some 0, ⟨ext, suffixProducts ext⟩⟩ := by
  simp [ofArray, ofExtents_ok]

theorem makeView_eq (n : Nat) (dims : Idx) :
    makeView n dims = if dims.prod ≤ n then .ok ⟨some 0, ⟨dims, suffixProducts dims⟩⟩ else .assertFail := by
  simp only [makeView, ofExtents_ok, Outcome.bind_ok, ofContainer, size_eq, Outcome.assert]
  by_cases h : dims.prod ≤ n <;> simp [h]

theorem asIdx_prod (ext : List Nat) : (asIdx ext).prod = (ext.prod : Int) := by
  induction ext with
  | nil => simp [asIdx]
  | cons n ns ih =>
    simp only [asIdx, List.map_cons, List.prod_cons] at ih ⊢
    rw [ih]
    push_cast
    rfl

/-- a view of the first elements of a buffer stays in it exactly if there are enough of them -/
theorem showsFirst_iff [Nonempty T] (n : Nat) (dims : Idx) (hp : ∀ d ∈ dims, 0 < d) :
    ShowsFirst T n ⟨some 0, ⟨dims, suffixProducts dims⟩⟩ ↔ dims.prod ≤ n := by
  constructor
  · intro h
    by_contra hlt
    have hR := rowMajor_visits hp
    have hlen := (hR.getElem hp).1
    have hk : n < (visits dims).length := by omega
    obtain ⟨x, h1, _⟩ := h (List.replicate n (Classical.arbitrary T)) (by simp) _ hR n hk
    simp at h1
  · intro h mem hm L hL k hk
    obtain ⟨_, hr, hlt⟩ := rowMajor_rank hL k hk
    simp only at hr hlt
    have hk' : k < mem.length := by omega
    refine ⟨mem[k], by simp [hk'], ?_⟩
    rw [get_contiguous, hr, load_eq _ _ (by omega)]
    simp [hk']

theorem showsFirst_of_le (n : Nat) (dims : Idx) (h : dims.prod ≤ n) : ShowsFirst T n ⟨some 0, ⟨dims, suffixProducts dims⟩⟩ := by
  intro mem hm L hL k hk
  obtain ⟨_, hr, hlt⟩ := rowMajor_rank hL k hk
  simp only at hr hlt
  have hk' : k < mem.length := by omega
  refine ⟨mem[k], by simp [hk'], ?_⟩
  rw [get_contiguous, hr, load_eq _ _ (by omega)]
  simp [hk']

/-- **C105** What a view can be made of.  Not of a const or temporary container; not with given dimensions of an array of arrays,
but for the constructor of a static view, which takes one of its own rank that has enough elements -/
theorem C105_compiles_iff (m : Mem) (dims : Idx) :
    ((∃ r, makeArrayView m = some r) ↔ match m with
      | .carray ext => ext ≠ []
      | .container _ src => src = .lvalue) ∧
    ((∃ r, makeStaticView m = some r) ↔ match m with
      | .carray ext => ext ≠ []
      | .container _ _ => False) ∧
    ((∃ r, makeArrayViewOf m dims = some r) ↔ match m with
      | .carray ext => ext.length = 1
      | .container _ src => src = .lvalue) ∧
    ((∃ r, makeStaticViewOf m dims = some r) ↔ match m with
      | .carray ext => ext.length = 1
      | .container _ src => src = .lvalue) ∧
    ((∃ r, staticViewOf m dims = some r) ↔ match m with
      | .carray ext => ext.length = 1 ∨ ext.length = dims.length ∧ dims.prod ≤ (ext.prod : Nat) ∧ ext ≠ []
      | .container _ src => src = .lvalue) := by
  cases m with
  | container n src =>
    simp only [makeArrayView, viewOf, makeStaticView, makeArrayViewOf, makeStaticViewOf, staticViewOf]
    by_cases h : src = .lvalue <;> simp [h]
  | carray ext =>
    simp only [makeArrayView, viewOf, makeStaticView, makeArrayViewOf, makeStaticViewOf, staticViewOf]
    refine ⟨?_, ?_, ?_, ?_, ?_⟩
    · by_cases h : ext = [] <;> simp [h]
    · by_cases h : ext = []
      · simp [h]
      · simp only [h, if_false, ne_eq, not_false_eq_true, iff_true]
        by_cases h1 : ext.length = 1
        · simp [h1]
        · rw [if_neg h1, if_pos ⟨by simp [asIdx], by rw [asIdx_prod], trivial⟩]
          exact ⟨_, rfl⟩
    · by_cases h : ext.length = 1 <;> simp [h]
    · by_cases h : ext.length = 1 <;> simp [h]
    · by_cases h : ext.length = 1
      · simp [h]
      · by_cases h2 : ext.length = dims.length ∧ (ext.prod : Int) ≥ dims.prod ∧ ext ≠ []
        · rw [if_neg h, if_pos h2]
          exact ⟨fun _ => .inr ⟨h2.1, h2.2.1, h2.2.2⟩, fun _ => ⟨_, rfl⟩⟩
        · rw [if_neg h, if_neg h2]
          constructor
          · rintro ⟨_, h3⟩; cases h3
          · rintro (h3 | h3)
            · exact absurd h3 h
            · exact absurd ⟨h3.1, h3.2.1, h3.2.2⟩ h2

example : makeArrayViewOf (.carray [2, 3]) [2, 3] = none ∧ makeArrayViewOf (.carray [6]) [2, 3] = some (.ok ⟨some 0, ⟨[2, 3], [3, 1]⟩⟩) ∧
    staticViewOf (.carray [3, 2]) [2, 3] = some (.ok ⟨some 0, ⟨[2, 3], [3, 1]⟩⟩) ∧ staticViewOf (.carray [2, 2]) [2, 3] = none ∧
    makeArrayView (.container 4 .constLvalue) = none := by decide

/-- **C105** A view made of a whole array or container, without dimensions given, has its extents and shows all its elements -/
theorem C105_whole (m : Mem) (w : View) (h : makeArrayView m = some (.ok w) ∨ makeStaticView m = some (.ok w)) :
    w.bnd.ext.prod = m.count ∧ ShowsFirst T m.count w ∧ ∀ ext, m = .carray ext → w.bnd.ext = asIdx ext := by
  cases m with
  | container n src =>
    simp only [makeArrayView, viewOf, makeStaticView, wholeView_ok] at h
    by_cases hs : src = .lvalue
    · simp only [hs, if_true, Option.some.injEq, Outcome.ok.injEq, reduceCtorEq, or_false] at h
      subst h
      exact ⟨by simp [Mem.count], showsFirst_of_le _ _ (by simp [Mem.count]), fun ext e => by cases e⟩
    · simp [hs] at h
  | carray ext =>
    have hw : w = ⟨some 0, ⟨asIdx ext, suffixProducts (asIdx ext)⟩⟩ := by
      by_cases he : ext = []
      · simp [makeArrayView, viewOf, makeStaticView, he] at h
      · simp only [makeArrayView, viewOf, makeStaticView, staticViewOf, wholeView_ok, ofArray_ok, he, if_false, Option.some.injEq,
          Outcome.ok.injEq] at h
        rcases h with h | h
        · exact h.symm
        · split at h
          · exact (Outcome.ok.inj (Option.some.inj h)).symm
          · split at h
            · exact (Outcome.ok.inj (Option.some.inj h)).symm
            · cases h
    subst hw
    refine ⟨by simp [asIdx_prod, Mem.count], showsFirst_of_le _ _ (by rw [asIdx_prod]; rfl), fun e he => ?_⟩
    cases he
    rfl

example : makeArrayView (.carray [2, 3]) = some (.ok ⟨some 0, ⟨[2, 3], [3, 1]⟩⟩) ∧
    makeStaticView (.carray [2, 3]) = some (.ok ⟨some 0, ⟨[2, 3], [3, 1]⟩⟩) ∧
    makeArrayView (.container 5 .lvalue) = some (.ok ⟨some 0, ⟨[5], [1]⟩⟩) ∧ Mem.count (.carray [2, 3]) = 6 := by decide

/-- **C105** With dimensions given, a view of a container is made exactly if the container has enough elements, and then shows
the first of them -/
theorem C105_container_dims (n : Nat) (dims : Idx) (f : Mem → Idx → Option (Outcome View))
    (hf : f = makeArrayViewOf ∨ f = makeStaticViewOf ∨ f = staticViewOf) :
    (f (.container n .lvalue) dims = some .assertFail ↔ (n : Int) < dims.prod) ∧
    ((∃ w, f (.container n .lvalue) dims = some (.ok w)) ↔ dims.prod ≤ n) ∧
    ∀ w, f (.container n .lvalue) dims = some (.ok w) → w.bnd.ext = dims ∧ ShowsFirst T n w := by
  have hm : f (.container n .lvalue) dims = some (makeView n dims) := by
    rcases hf with h | h | h <;> subst h <;> simp [makeArrayViewOf, makeStaticViewOf, staticViewOf]
  rw [hm, makeView_eq]
  by_cases h : dims.prod ≤ n
  · simp only [h, if_true, Option.some.injEq, reduceCtorEq, false_iff, not_lt, Outcome.ok.injEq, exists_eq', true_and]
    rintro w rfl
    exact ⟨rfl, showsFirst_of_le _ _ h⟩
  · simp [h]
    omega

example : staticViewOf (.container 5 .lvalue) [2, 3] = some .assertFail ∧
    staticViewOf (.container 7 .lvalue) [2, 3] = some (.ok ⟨some 0, ⟨[2, 3], [3, 1]⟩⟩) := by decide

/-- **C105** With dimensions given, a view of an array of one dimension is always made, and stays inside the array exactly if that
has enough elements: nothing checks it -/
theorem C105_carray_dims_iff [Nonempty T] (n : Nat) (dims : Idx) (hp : ∀ d ∈ dims, 0 < d) (f : Mem → Idx → Option (Outcome View))
    (hf : f = makeArrayViewOf ∨ f = makeStaticViewOf ∨ f = staticViewOf) :
    ∃ w, f (.carray [n]) dims = some (.ok w) ∧ w.bnd.ext = dims ∧ (ShowsFirst T n w ↔ dims.prod ≤ n) := by
  refine ⟨⟨some 0, ⟨dims, suffixProducts dims⟩⟩, ?_, rfl, showsFirst_iff n dims hp⟩
  rcases hf with h | h | h <;> subst h <;> simp [makeArrayViewOf, makeStaticViewOf, staticViewOf, wholeView_ok]

example : makeStaticViewOf (.carray [6]) [2, 3] = some (.ok ⟨some 0, ⟨[2, 3], [3, 1]⟩⟩) := by decide

/-- **C105** fails for arrays of one dimension: a static view of five elements over an array of three is accepted and reads past
the end, and so is a dynamic one -/
theorem C105_carray_dims_fails : ∃ w, staticViewOf (.carray [3]) [5] = some (.ok w) ∧ makeStaticViewOf (.carray [3]) [5] = some (.ok w) ∧
    makeArrayViewOf (.carray [3]) [5] = some (.ok w) ∧ contains [4] w.bnd.ext = true ∧ w.at' [10, 11, 12] [4] = .ub :=
  ⟨⟨some 0, ⟨[5], [1]⟩⟩, by decide, by decide, by decide, by decide, by decide⟩

/-- **C105** A static view of an array of more dimensions is made only if the array has enough elements, and shows the first of
them, whatever its own extents -/
theorem C105_static_carray (ext : List Nat) (dims : Idx) (hr : ext.length ≠ 1) (w : View)
    (h : staticViewOf (.carray ext) dims = some (.ok w)) :
    ext.length = dims.length ∧ dims.prod ≤ (ext.prod : Nat) ∧ w.bnd.ext = dims ∧ ShowsFirst T ext.prod w := by
  simp only [staticViewOf, if_neg hr] at h
  split at h
  · rename_i hc
    rw [wholeView_ok] at h
    obtain rfl := (Outcome.ok.inj (Option.some.inj h)).symm
    exact ⟨hc.1, hc.2.1, rfl, showsFirst_of_le _ _ hc.2.1⟩
  · cases h

example : staticViewOf (.carray [2, 4]) [3, 2] = some (.ok ⟨some 0, ⟨[3, 2], [2, 1]⟩⟩) := by decide

end Verif.ArrayView
