import Verif.MultiArray.Model
import Mathlib.Tactic.Linarith
import Mathlib.Tactic.Ring

/-!
# C20 (row-major indexing), C21 (column-major ordering) and the `multi_array` part of C05
-/

namespace Verif.MultiArray

/-! ## Specification -/
namespace Spec

/-- the index tuple lies inside the shape -/
def InRange : List Nat → List Nat → Prop
  | [], [] => True
  | i :: is, d :: ds => i < d ∧ InRange is ds
  | _, _ => False

/-- number of index tuples of a shape -/
def count : List Nat → Nat
  | [] => 1
  | d :: ds => d * count ds

/-- lexicographic order of index tuples of equal length: the first index is the slowest -/
def Before : List Nat → List Nat → Prop
  | i :: is, j :: js => i < j ∨ (i = j ∧ Before is js)
  | _, _ => False

/-- `f` numbers the index tuples of the shape one-to-one with `0 .. count-1` -/
def Numbering (f : List Nat → Nat) (dims : List Nat) : Prop :=
  (∀ ids, InRange ids dims → f ids < count dims) ∧
  (∀ a b, InRange a dims → InRange b dims → f a = f b → a = b) ∧
  (∀ m, m < count dims → ∃ ids, InRange ids dims ∧ f ids = m)

end Spec
open Spec

theorem InRange.length {is ds : List Nat} (h : InRange is ds) : is.length = ds.length := by
  induction is generalizing ds with
  | nil => cases ds with
    | nil => rfl
    | cons => simp [InRange] at h
  | cons i is ih => cases ds with
    | nil => simp [InRange] at h
    | cons d ds => simp [ih h.2]

/-! ## Strides -/

/-- products of the dimensions behind each position -/
def suffixProducts : List Nat → List Nat
  | [] => []
  | _ :: ds => count ds :: suffixProducts ds

theorem stride_all (d : Nat) (ds : List Nat) : stride (d :: ds) ds.length = .ok (count ds) := by
  induction ds generalizing d with
  | nil => rfl
  | cons e es ih => simp only [List.length_cons, stride, ih e, Outcome.bind_ok, count]

theorem suffixProducts_length (ds : List Nat) : (suffixProducts ds).length = ds.length := by
  induction ds with
  | nil => rfl
  | cons d ds ih => simp [suffixProducts, ih]

theorem stride_drop (dims : List Nat) (I : Nat) (h : I < dims.length) :
    stride (dims.drop I) (dims.length - I - 1) = .ok ((suffixProducts dims)[I]'(by rw [suffixProducts_length]; exact h)) := by
  induction dims generalizing I with
  | nil => simp at h
  | cons d ds ih =>
    cases I with
    | zero => simpa [suffixProducts] using stride_all d ds
    | succ I =>
      have hl : (d :: ds).length - (I + 1) - 1 = ds.length - I - 1 := by simp
      rw [hl, List.drop_succ_cons, ih I (by simpa using h)]
      simp [suffixProducts]

theorem collect_ok (l : List Nat) : collect (l.map .ok) = .ok l := by
  induction l with
  | nil => rfl
  | cons x xs ih => simp [collect, ih]

theorem rowMajor_ok (dims : List Nat) : rowMajor dims = .ok (suffixProducts dims) := by
  have : ((List.range dims.length).map fun I => stride (dims.drop I) (dims.length - I - 1))
      = (suffixProducts dims).map .ok := by
    apply List.ext_getElem
    · simp [suffixProducts_length]
    · intro I h1 h2
      simp at h1
      simp [stride_drop dims I h1]
  rw [rowMajor, this, collect_ok]

theorem colMajor_ok (dims : List Nat) : colMajor dims = .ok (suffixProducts dims).reverse := by
  have : ((List.range dims.length).map fun I => stride (dims.drop (dims.length - I - 1)) I)
      = (suffixProducts dims).reverse.map .ok := by
    apply List.ext_getElem
    · simp [suffixProducts_length]
    · intro I h1 h2
      simp at h1
      have := stride_drop dims (dims.length - I - 1) (by omega)
      have e : dims.length - (dims.length - I - 1) - 1 = I := by omega
      rw [e] at this
      simp only [List.getElem_map, List.getElem_range, this, List.getElem_reverse]
      congr 2
      rw [suffixProducts_length]; omega
  rw [colMajor, this, collect_ok]

/-! ## The row-major number -/

/-- mixed-radix value, by recursion from the first (slowest) index -/
def rank : List Nat → List Nat → Nat
  | i :: is, _ :: ds => i * count ds + rank is ds
  | _, _ => 0

theorem elementLoop_acc (ind : Nat) (is ss : List Nat) : elementLoop ind is ss = ind + elementLoop 0 is ss := by
  induction is generalizing ind ss with
  | nil => simp [elementLoop]
  | cons i is ih =>
    cases ss with
    | nil => simp [elementLoop]
    | cons s ss => simp only [elementLoop]; rw [ih, ih (0 + i * s)]; omega

theorem element_rank (dims ids : List Nat) : element (suffixProducts dims) ids = rank ids dims := by
  unfold element
  induction ids generalizing dims with
  | nil => cases dims <;> simp [elementLoop, rank]
  | cons i is ih =>
    cases dims with
    | nil => simp [suffixProducts, elementLoop, rank]
    | cons d ds => simp only [suffixProducts, elementLoop, rank]; rw [elementLoop_acc, ih]; omega

theorem rank_lt (ids dims : List Nat) (h : InRange ids dims) : rank ids dims < count dims := by
  induction ids generalizing dims with
  | nil => cases dims with
    | nil => simp [rank, count]
    | cons => simp [InRange] at h
  | cons i is ih => cases dims with
    | nil => simp [InRange] at h
    | cons d ds =>
      have := ih ds h.2
      simp only [rank, count]
      calc i * count ds + rank is ds < i * count ds + count ds := by omega
        _ = (i + 1) * count ds := by ring
        _ ≤ d * count ds := Nat.mul_le_mul_right _ h.1

theorem rank_before (a b dims : List Nat) (ha : InRange a dims) (hb : InRange b dims) (h : Before a b) :
    rank a dims < rank b dims := by
  induction dims generalizing a b with
  | nil => cases a <;> cases b <;> simp_all [InRange, Before]
  | cons d ds ih =>
    cases a with
    | nil => simp [InRange] at ha
    | cons i is =>
      cases b with
      | nil => simp [InRange] at hb
      | cons j js =>
        have hr := rank_lt is ds ha.2
        simp only [rank]
        rcases h with h | ⟨rfl, h⟩
        · calc i * count ds + rank is ds < (i + 1) * count ds := by rw [Nat.add_mul]; omega
            _ ≤ j * count ds := Nat.mul_le_mul_right _ h
            _ ≤ j * count ds + rank js ds := by omega
        · have := ih is js ha.2 hb.2 h; omega

theorem before_total (a b dims : List Nat) (ha : InRange a dims) (hb : InRange b dims) (h : a ≠ b) :
    Before a b ∨ Before b a := by
  induction dims generalizing a b with
  | nil => cases a <;> cases b <;> simp_all [InRange]
  | cons d ds ih =>
    cases a with
    | nil => simp [InRange] at ha
    | cons i is =>
      cases b with
      | nil => simp [InRange] at hb
      | cons j js =>
        rcases Nat.lt_trichotomy i j with hij | hij | hij
        · exact Or.inl (Or.inl hij)
        · subst hij
          rcases ih is js ha.2 hb.2 (fun e => h (by rw [e])) with h' | h'
          · exact Or.inl (Or.inr ⟨rfl, h'⟩)
          · exact Or.inr (Or.inr ⟨rfl, h'⟩)
        · exact Or.inr (Or.inl hij)

theorem rank_surj (dims : List Nat) (m : Nat) (h : m < count dims) : ∃ ids, InRange ids dims ∧ rank ids dims = m := by
  induction dims generalizing m with
  | nil => exact ⟨[], trivial, by simp [count] at h; simp [rank, h]⟩
  | cons d ds ih =>
    simp only [count] at h
    have hpos : 0 < count ds := by
      rcases Nat.eq_zero_or_pos (count ds) with h0 | h0
      · rw [h0] at h; simp at h
      · exact h0
    obtain ⟨is, hi, e⟩ := ih (m % count ds) (Nat.mod_lt _ hpos)
    refine ⟨m / count ds :: is, ⟨(Nat.div_lt_iff_lt_mul hpos).2 h, hi⟩, ?_⟩
    simp only [rank, e]
    exact Nat.div_add_mod' m (count ds)

/-! ## Properties -/

/-- **C20** For every shape the strides are well defined, and the index computation numbers
the in-range index tuples one-to-one with the storage positions `0 .. elements-1`. -/
theorem C20_bijection (dims : List Nat) :
    ∃ strides, rowMajor dims = .ok strides ∧ elements dims = count dims ∧
      Numbering (element strides) dims := by
  refine ⟨_, rowMajor_ok dims, ?_, ?_, ?_, ?_⟩
  · induction dims with
    | nil => rfl
    | cons d ds ih => simp only [elements, List.foldr_cons, count] at *; rw [ih]
  · intro ids h; rw [element_rank]; exact rank_lt ids dims h
  · intro a b ha hb e
    rw [element_rank, element_rank] at e
    by_contra hne
    rcases before_total a b dims ha hb hne with h | h
    · have := rank_before a b dims ha hb h; omega
    · have := rank_before b a dims hb ha h; omega
  · intro m hm
    obtain ⟨ids, h, e⟩ := rank_surj dims m hm
    exact ⟨ids, h, by rw [element_rank]; exact e⟩

/-- **C20** The numbering is row major: index tuples are stored in lexicographic order. -/
theorem C20_row_major (dims : List Nat) :
    ∃ strides, rowMajor dims = .ok strides ∧
      ∀ a b, InRange a dims → InRange b dims → (Before a b ↔ element strides a < element strides b) := by
  refine ⟨_, rowMajor_ok dims, fun a b ha hb => ?_⟩
  rw [element_rank, element_rank]
  constructor
  · exact rank_before a b dims ha hb
  · intro h
    by_cases hne : a = b
    · subst hne; omega
    · rcases before_total a b dims ha hb hne with h' | h'
      · exact h'
      · have := rank_before b a dims hb ha h'; omega

example : InRange [1, 0, 2] [2, 3, 4] ∧ InRange [1, 1, 0] [2, 3, 4] ∧ Before [1, 0, 2] [1, 1, 0] := by
  simp [InRange, Before]

theorem checkRanges_ok (ids dims : List Nat) (h : InRange ids dims) :
    checkRanges ids dims = .ok () ∧ assertRanges ids dims = .ok () := by
  induction ids generalizing dims with
  | nil => cases dims <;> simp_all [InRange, checkRanges, assertRanges]
  | cons i is ih => cases dims with
    | nil => simp [InRange] at h
    | cons d ds =>
      obtain ⟨h1, h2⟩ := h
      simp [checkRanges, assertRanges, h1, ih ds h2]

theorem checkRanges_fail (ids dims : List Nat) (hl : ids.length = dims.length) (h : ¬ InRange ids dims) :
    checkRanges ids dims = .outOfRange ∧ assertRanges ids dims = .assertFail := by
  induction ids generalizing dims with
  | nil => cases dims <;> simp_all [InRange]
  | cons i is ih => cases dims with
    | nil => simp at hl
    | cons d ds =>
      by_cases hi : i < d
      · have := ih ds (by simpa using hl) (fun h' => h ⟨hi, h'⟩)
        simp [checkRanges, assertRanges, hi, this]
      · simp [checkRanges, assertRanges, hi]

theorem elements_count (dims : List Nat) : elements dims = count dims := (C20_bijection dims).choose_spec.2.1

theorem access_eq (dims : List Nat) (elems : List T) (hs : elems.length = elements dims)
    (ids : List Nat) (h : InRange ids dims) :
    ∃ hlt : rank ids dims < elems.length, call dims elems ids = .ok (elems[rank ids dims]) ∧
      at' dims elems ids = .ok (elems[rank ids dims]) ∧ index dims elems ids = .ok (elems[rank ids dims]) := by
  have hlt : rank ids dims < elems.length := by rw [hs, elements_count]; exact rank_lt ids dims h
  obtain ⟨h1, h2⟩ := checkRanges_ok ids dims h
  refine ⟨hlt, ?_, ?_, ?_⟩ <;>
    simp [call, at', index, h1, h2, rowMajor_ok, element_rank, load, hlt]

/-- **C20** Loads see stores: writing at one index tuple changes exactly that element. -/
theorem C20_store_load {T : Type} (dims : List Nat) (elems : List T) (hs : elems.length = elements dims)
    (ids ids' : List Nat) (h : InRange ids dims) (h' : InRange ids' dims) (v : T) :
    ∃ elems', callStore dims elems ids v = .ok elems' ∧ elems'.length = elements dims ∧
      call dims elems' ids' = if ids' = ids then .ok v else call dims elems ids' := by
  have hlt : rank ids dims < elems.length := by rw [hs, elements_count]; exact rank_lt ids dims h
  obtain ⟨h1, h2⟩ := checkRanges_ok ids dims h
  refine ⟨elems.set (rank ids dims) v, ?_, by simp [hs], ?_⟩
  · simp [callStore, h2, rowMajor_ok, element_rank, store, hlt]
  · obtain ⟨k1, e1, _⟩ := access_eq dims (elems.set (rank ids dims) v) (by simp [hs]) ids' h'
    obtain ⟨k2, e2, _⟩ := access_eq dims elems hs ids' h'
    rw [e1, e2, List.getElem_set]
    by_cases he : ids' = ids
    · subst he; simp
    · rw [if_neg he, if_neg]
      intro hr
      rcases before_total ids' ids dims h' h he with hb | hb
      · have := rank_before _ _ dims h' h hb; omega
      · have := rank_before _ _ dims h h' hb; omega

example : [1, 2, 3, 4, 5, 6].length = elements [2, 3] ∧ InRange [1, 2] [2, 3] := by
  simp [elements, InRange]

/-- **C20** A full initializer list is laid out in lexicographic order of the indices; a
single value fills the array; any other length is rejected by the assertion. -/
theorem C20_initializer_list {T : Type} (dims : List Nat) (l : List T) :
    (l.length = elements dims → l.length ≠ 1 → ofList dims l = .ok l ∧
      ∀ ids, InRange ids dims → ∃ k, ∃ hk : k < l.length, call dims l ids = .ok l[k] ∧
        ∃ strides, rowMajor dims = .ok strides ∧ element strides ids = k) ∧
    (∀ v : T, ofList dims [v] = .ok (List.replicate (elements dims) v)) ∧
    (l.length ≠ elements dims → l.length ≠ 1 → ofList dims l = .assertFail) := by
  refine ⟨fun h h1 => ⟨?_, fun ids hi => ?_⟩, fun v => rfl, fun h h1 => ?_⟩
  · unfold ofList; split
    · simp at h1
    · rw [if_pos h]
  · obtain ⟨hlt, e, _⟩ := access_eq dims l h ids hi
    exact ⟨_, hlt, e, _, rowMajor_ok dims, element_rank dims ids⟩
  · unfold ofList; split
    · simp at h1
    · rw [if_neg h]

/-- **C05** `multi_array::at` throws `out_of_range` exactly for index tuples outside the
shape, `operator()` fails its assertion exactly then, and otherwise both yield the element. -/
theorem C05_multi_array {T : Type} (dims : List Nat) (elems : List T) (hs : elems.length = elements dims)
    (ids : List Nat) (hl : ids.length = dims.length) :
    (InRange ids dims → ∃ x ∈ elems, at' dims elems ids = .ok x ∧ call dims elems ids = .ok x) ∧
    (¬ InRange ids dims → at' dims elems ids = .outOfRange ∧ call dims elems ids = .assertFail) := by
  constructor
  · intro h
    obtain ⟨hlt, e1, e2, _⟩ := access_eq dims elems hs ids h
    exact ⟨_, List.getElem_mem hlt, e2, e1⟩
  · intro h
    obtain ⟨h1, h2⟩ := checkRanges_fail ids dims hl h
    simp [at', call, h1, h2]

/-- **C05** `operator[]` with one number is checked by an assertion and otherwise yields the
element at that place of the storage, whatever the shape; numbering an index tuple in range
row-major and then reading the storage is the same as reading the tuple. -/
theorem C05_multi_array_flat {T : Type} (dims : List Nat) (elems : List T) (hs : elems.length = elements dims)
    (i : Nat) :
    (∀ x, elems[i]? = some x → flat dims elems i = .ok x) ∧
    (elems.length ≤ i → flat dims elems i = .assertFail) ∧
    (∀ ids strides, InRange ids dims → rowMajor dims = .ok strides →
      flat dims elems (element strides ids) = call dims elems ids) := by
  refine ⟨fun x hx => ?_, fun h => ?_, fun ids strides hi hr => ?_⟩
  · have := (List.getElem?_eq_some_iff.1 hx).1
    rw [flat, if_pos (by omega), load, hx]
  · rw [flat, if_neg (by omega)]
  · obtain ⟨hlt, e1, _, _⟩ := access_eq dims elems hs ids hi
    rw [rowMajor_ok] at hr
    obtain rfl := Outcome.ok.inj hr
    rw [element_rank, e1, flat, if_pos (by omega), load, List.getElem?_eq_getElem hlt]

example : flat [2, 3] [1, 2, 3, 4, 5, 6] 4 = .ok 5 ∧ flat [2, 3] [1, 2, 3, 4, 5, 6] 6 = .assertFail ∧
    call [2, 3] [1, 2, 3, 4, 5, 6] [1, 1] = .ok 5 := by decide

/-- **C05** The unchecked `operator[]` on an index array can leave the storage. -/
theorem C05_multi_array_unchecked_fails :
    index [2, 3] [1, 2, 3, 4, 5, 6] [2, 0] = .ub ∧ at' [2, 3] [1, 2, 3, 4, 5, 6] [2, 0] = .outOfRange := by
  decide

/-! ## C21 -/

/-- **C21 fails**: for a 2×3 shape the column-major number of the last element lies outside
the storage, and for a 3×2 shape two elements collide. -/
theorem C21_col_major_fails :
    (∃ s, colMajor [2, 3] = .ok s ∧ ¬ Numbering (element s) [2, 3] ∧ element s [1, 2] = 7) ∧
    (∃ s, colMajor [3, 2] = .ok s ∧ ¬ Numbering (element s) [3, 2] ∧ element s [2, 0] = element s [0, 1]) := by
  refine ⟨⟨[1, 3], by decide, ?_, by decide⟩, ⟨[1, 2], by decide, ?_, by decide⟩⟩
  · intro h
    have := h.1 [1, 2] (by simp [InRange])
    revert this; decide
  · intro h
    have := h.2.1 [2, 0] [0, 1] (by simp [InRange]) (by simp [InRange]) (by decide)
    revert this; decide

theorem elementLoop_append (i1 i2 s1 s2 : List Nat) (h : i1.length = s1.length) :
    elementLoop 0 (i1 ++ i2) (s1 ++ s2) = elementLoop 0 i1 s1 + elementLoop 0 i2 s2 := by
  induction i1 generalizing s1 with
  | nil => cases s1 with
    | nil => simp [elementLoop]
    | cons => simp at h
  | cons i is ih => cases s1 with
    | nil => simp at h
    | cons s ss =>
      simp only [List.cons_append, elementLoop]
      rw [elementLoop_acc, elementLoop_acc _ is ss, ih ss (by simpa using h)]; omega

theorem element_reverse (is ss : List Nat) (h : is.length = ss.length) :
    element ss.reverse is.reverse = element ss is := by
  unfold element
  induction is generalizing ss with
  | nil => cases ss with
    | nil => rfl
    | cons => simp at h
  | cons i is ih => cases ss with
    | nil => simp at h
    | cons s ss =>
      simp only [List.length_cons, Nat.add_right_cancel_iff] at h
      simp only [List.reverse_cons]
      rw [elementLoop_append _ _ _ _ (by simp [h]), ih ss h]
      simp only [elementLoop]
      rw [elementLoop_acc (0 + i * s)]; omega

/-- **C21** What the ordering does: it is the row-major numbering of the *reversed* shape,
read with the indices reversed (so the strides are those of the transposed array). -/
theorem C21_col_major_characterisation (dims ids : List Nat) (hl : ids.length = dims.length) :
    ∃ s s', colMajor dims = .ok s ∧ rowMajor dims = .ok s' ∧ element s ids = element s' ids.reverse := by
  refine ⟨_, _, colMajor_ok dims, rowMajor_ok dims, ?_⟩
  have := element_reverse ids.reverse (suffixProducts dims) (by simp [suffixProducts_length, hl])
  rwa [List.reverse_reverse] at this

example : ∃ s s', colMajor [2, 3] = .ok s ∧ rowMajor [2, 3] = .ok s' ∧ element s [1, 2] = element s' [2, 1] :=
  C21_col_major_characterisation [2, 3] [1, 2] rfl

theorem InRange.reverse {is ds : List Nat} : InRange is ds → InRange is.reverse ds.reverse := by
  have app : ∀ a b c d, InRange a b → InRange c d → InRange (a ++ c) (b ++ d) := by
    intro a
    induction a with
    | nil => intro b c d h1 h2; cases b <;> simp_all [InRange]
    | cons x xs ih =>
      intro b c d h1 h2
      cases b with
      | nil => simp [InRange] at h1
      | cons y ys => exact ⟨h1.1, ih ys c d h1.2 h2⟩
  induction is generalizing ds with
  | nil => cases ds <;> simp [InRange]
  | cons i is ih => cases ds with
    | nil => simp [InRange]
    | cons d ds =>
      intro h
      simp only [List.reverse_cons]
      exact app _ _ _ _ (ih h.2) ⟨h.1, trivial⟩

/-- **C21 (partial)** For shapes that read the same backwards (square matrices, cubes, ...)
the ordering is a bijection onto the storage with the first index fastest. -/
theorem C21_col_major_partial (dims : List Nat) (hp : dims.reverse = dims) :
    ∃ s, colMajor dims = .ok s ∧ Numbering (element s) dims ∧
      ∀ a b, InRange a dims → InRange b dims → (Before a.reverse b.reverse ↔ element s a < element s b) := by
  obtain ⟨s', e', _, hN⟩ := C20_bijection dims
  obtain ⟨s2, e2, hB⟩ := C20_row_major dims
  have hs2 : s2 = s' := by rw [e'] at e2; simpa using e2.symm
  subst hs2
  have hrev : ∀ ids, InRange ids dims → InRange ids.reverse dims := fun ids h => by
    have := InRange.reverse h; rwa [hp] at this
  have hel : ∀ ids, InRange ids dims → element (suffixProducts dims).reverse ids = element s2 ids.reverse := by
    intro ids h
    obtain ⟨s, s'', e1, e3, e⟩ := C21_col_major_characterisation dims ids (InRange.length h)
    rw [colMajor_ok] at e1
    rw [e2] at e3
    simp only [Outcome.ok.injEq] at e1 e3
    subst e1; subst e3; exact e
  refine ⟨_, colMajor_ok dims, ⟨?_, ?_, ?_⟩, ?_⟩
  · intro ids h; rw [hel ids h]; exact hN.1 _ (hrev ids h)
  · intro a b ha hb e
    rw [hel a ha, hel b hb] at e
    have := hN.2.1 _ _ (hrev a ha) (hrev b hb) e
    simpa using this
  · intro m hm
    obtain ⟨ids, h, e⟩ := hN.2.2 m hm
    exact ⟨ids.reverse, hrev ids h, by rw [hel _ (hrev ids h)]; simpa using e⟩
  · intro a b ha hb
    rw [hel a ha, hel b hb]
    exact hB _ _ (hrev a ha) (hrev b hb)

example : [3, 3].reverse = [3, 3] ∧ [2, 5, 2].reverse = [2, 5, 2] := by decide

/-- the strides `S, S*r0, S*r0*r1, ...` -/
def weights (S : Nat) : List Nat → List Nat
  | [] => []
  | r :: rs => S :: weights (S * r) rs

theorem weights_snoc (S : Nat) (r : List Nat) (x : Nat) : weights S (r ++ [x]) = weights S r ++ [S * count r] := by
  induction r generalizing S with
  | nil => simp [weights, count]
  | cons a r ih => simp [weights, count, ih, Nat.mul_assoc]

theorem count_append (a b : List Nat) : count (a ++ b) = count a * count b := by
  induction a with
  | nil => simp [count]
  | cons x a ih => simp [count, ih, Nat.mul_assoc]

theorem count_reverse (ds : List Nat) : count ds.reverse = count ds := by
  induction ds with
  | nil => rfl
  | cons d ds ih => simp [count_append, ih, count, Nat.mul_comm]

theorem suffixProducts_reverse (dims : List Nat) : (suffixProducts dims).reverse = weights 1 dims.reverse := by
  induction dims with
  | nil => rfl
  | cons d ds ih => simp [suffixProducts, ih, weights_snoc, count_reverse]

theorem count_pos {ds : List Nat} (h : ∀ d ∈ ds, 2 ≤ d) : 0 < count ds := by
  induction ds with
  | nil => simp [count]
  | cons d ds ih =>
    have := h d (by simp)
    exact Nat.mul_pos (by omega) (ih fun x hx => h x (by simp [hx]))

/-- all zeros -/
theorem inRange_zeros {ds : List Nat} (h : ∀ d ∈ ds, 2 ≤ d) : InRange (List.replicate ds.length 0) ds := by
  induction ds with
  | nil => simp [InRange]
  | cons d ds ih =>
    have := h d (by simp)
    exact ⟨by omega, ih fun x hx => h x (by simp [hx])⟩

theorem element_zeros (n : Nat) (ss : List Nat) : elementLoop 0 (List.replicate n 0) ss = 0 := by
  induction n generalizing ss with
  | zero => cases ss <;> simp [elementLoop]
  | succ n ih => cases ss with
    | nil => simp [List.replicate_succ, elementLoop]
    | cons s ss => simp only [List.replicate_succ, elementLoop, Nat.zero_mul, Nat.add_zero]; exact ih ss

/-- a value of the strides from `S` on is zero or at least `S` -/
theorem element_weights_ge (S : Nat) (r is : List Nat) (hr : ∀ x ∈ r, 2 ≤ x) (h : elementLoop 0 is (weights S r) ≠ 0) :
    S ≤ elementLoop 0 is (weights S r) := by
  induction r generalizing S is with
  | nil => cases is <;> simp [weights, elementLoop] at h
  | cons a r ih =>
    cases is with
    | nil => simp [weights, elementLoop] at h
    | cons i is =>
      simp only [weights, elementLoop] at h ⊢
      rw [elementLoop_acc] at h ⊢
      have ha := hr a (by simp)
      by_cases hi : i = 0
      · subst hi
        simp only [Nat.zero_mul, Nat.zero_add] at h ⊢
        have := ih (S * a) is (fun x hx => hr x (by simp [hx])) h
        exact le_trans (Nat.le_mul_of_pos_right S (by omega)) this
      · have : S ≤ i * S := Nat.le_mul_of_pos_left S (by omega)
        omega

theorem weights_palindrome (r d : List Nat) (S : Nat) (hS : 0 < S) (hl : r.length = d.length) (hc : count r = count d)
    (hr : ∀ x ∈ r, 2 ≤ x) (hd : ∀ x ∈ d, 2 ≤ x)
    (hi : ∀ a b, InRange a d → InRange b d → elementLoop 0 a (weights S r) = elementLoop 0 b (weights S r) → a = b)
    (hs : ∀ m, m < S * count d → ∃ a ids, a < S ∧ InRange ids d ∧ a + elementLoop 0 ids (weights S r) = m) : r = d := by
  induction r generalizing d S with
  | nil => cases d with
    | nil => rfl
    | cons => simp at hl
  | cons r0 r ih =>
    cases d with
    | nil => simp at hl
    | cons d0 d =>
      have hr0 := hr r0 (by simp)
      have hd0 := hd d0 (by simp)
      have hr' : ∀ x ∈ r, 2 ≤ x := fun x hx => hr x (by simp [hx])
      have hd' : ∀ x ∈ d, 2 ≤ x := fun x hx => hd x (by simp [hx])
      have hl' : r.length = d.length := by simpa using hl
      have h0 : r0 = d0 := by
        cases d with
        | nil =>
          have : r = [] := List.length_eq_zero_iff.1 (by simpa using hl')
          subst this
          simpa [count] using hc
        | cons d1 d =>
          cases r with
          | nil => simp at hl'
          | cons r1 r =>
            have hd1 := hd' d1 (by simp)
            have hd'' : ∀ x ∈ d, 2 ≤ x := fun x hx => hd' x (by simp [hx])
            rcases Nat.lt_trichotomy r0 d0 with hlt | heq | hgt
            · exfalso
              have := hi (r0 :: 0 :: List.replicate d.length 0) (0 :: 1 :: List.replicate d.length 0)
                ⟨hlt, by omega, inRange_zeros hd''⟩ ⟨by omega, by omega, inRange_zeros hd''⟩ (by
                  simp only [weights, elementLoop]
                  rw [elementLoop_acc, element_zeros, elementLoop_acc _ (List.replicate d.length 0), element_zeros]
                  ring)
              simp at this
            · exact heq
            · exfalso
              have hcp := count_pos hd''
              obtain ⟨a, ids, ha, hin, he⟩ := hs (S * d0) (by
                simp only [count]
                have : d0 * 1 < d0 * (d1 * count d) := by
                  apply Nat.mul_lt_mul_of_pos_left _ (by omega)
                  calc 1 < d1 * 1 := by omega
                    _ ≤ d1 * count d := Nat.mul_le_mul_left _ hcp
                rw [Nat.mul_one] at this
                exact Nat.mul_lt_mul_of_pos_left this hS)
              cases ids with
              | nil => simp [InRange] at hin
              | cons i is =>
                simp only [weights, elementLoop] at he
                rw [elementLoop_acc] at he
                have hi0 : i < d0 := hin.1
                have hle : (i + 1) * S ≤ d0 * S := Nat.mul_le_mul_right _ hi0
                by_cases hz : elementLoop 0 is (weights (S * r0) (r1 :: r)) = 0
                · simp only [weights] at hz
                  rw [hz] at he
                  rw [Nat.add_mul, Nat.mul_comm d0] at hle
                  omega
                · have := element_weights_ge (S * r0) (r1 :: r) is hr' hz
                  simp only [weights] at this
                  have : S * d0 < S * r0 := Nat.mul_lt_mul_of_pos_left hgt hS
                  omega
      subst h0
      have hc' : count r = count d := by
        simp only [count] at hc
        exact Nat.eq_of_mul_eq_mul_left (by omega) hc
      rw [ih d (S * r0) (Nat.mul_pos hS (by omega)) hl' hc' hr' hd' ?_ ?_]
      · intro a b ha hb e
        have := hi (0 :: a) (0 :: b) ⟨by omega, ha⟩ ⟨by omega, hb⟩ (by
          simp only [weights, elementLoop, Nat.zero_mul, Nat.zero_add]; exact e)
        simpa using this
      · intro m hm
        obtain ⟨a, ids, ha, hin, he⟩ := hs m (by simpa [count, Nat.mul_assoc] using hm)
        cases ids with
        | nil => simp [InRange] at hin
        | cons i is =>
          simp only [weights, elementLoop] at he
          rw [elementLoop_acc] at he
          refine ⟨a + i * S, is, ?_, hin.2, by omega⟩
          have : (i + 1) * S ≤ r0 * S := Nat.mul_le_mul_right _ hin.1
          rw [Nat.add_mul, Nat.mul_comm r0] at this
          omega

/-- **C21** exactly: for shapes without trivial dimensions, the column-major ordering numbers the
elements one-to-one if and only if the shape reads the same backwards. -/
theorem C21_col_major_iff (dims : List Nat) (hd : ∀ d ∈ dims, 2 ≤ d) :
    (∃ s, colMajor dims = .ok s ∧ Numbering (element s) dims) ↔ dims.reverse = dims := by
  constructor
  · rintro ⟨s, e, h⟩
    rw [colMajor_ok, Outcome.ok.injEq, suffixProducts_reverse] at e
    subst e
    refine weights_palindrome dims.reverse dims 1 (by omega) (by simp) (count_reverse dims)
      (fun x hx => hd x (by simpa using hx)) hd h.2.1 fun m hm => ?_
    obtain ⟨ids, h1, h2⟩ := h.2.2 m (by simpa using hm)
    exact ⟨0, ids, by omega, h1, by simpa [element] using h2⟩
  · intro h
    obtain ⟨s, e, h1, -⟩ := C21_col_major_partial dims h
    exact ⟨s, e, h1⟩

/-- a shape on either side -/
example : (∃ s, colMajor [2, 5, 2] = .ok s ∧ Numbering (element s) [2, 5, 2]) ∧
    ¬ ∃ s, colMajor [2, 5, 3] = .ok s ∧ Numbering (element s) [2, 5, 3] := by
  rw [C21_col_major_iff _ (by decide), C21_col_major_iff _ (by decide)]
  decide

end Verif.MultiArray
