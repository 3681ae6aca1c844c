import Verif.ArrayView.PropsIter

/-!
# C97: copies and conversions of views show the same elements
-/

namespace Verif.ArrayView

variable {T : Type}

theorem RowMajor.getElem {ext : List Int} (hp : ∀ n ∈ ext, 0 < n) {L : List Idx} (hL : RowMajor ext L) :
    L.length = ext.prod.toNat ∧ ∀ k (h : k < L.length), L[k] = nth ext k := by
  obtain rfl := hL.unique (rowMajor_visits hp)
  exact ⟨by simp [visits], fun k h => by simp [visits]⟩

theorem linLoop_zero (n : Nat) (str : List Int) : linLoop 0 (List.replicate n 0) str = 0 := by
  induction n generalizing str with
  | zero => simp [linLoop]
  | succ n ih => cases str with
    | nil => simp [List.replicate_succ, linLoop]
    | cons s ss => simp [List.replicate_succ, linLoop, ih]

theorem lin_rank_iff (ext str : List Int) (hp : ∀ n ∈ ext, 0 < n) (hl : str.length = ext.length) :
    (∀ idx, Contained idx ext → linLoop 0 idx str = rankOf idx ext) ↔
      ∀ d (h : d < ext.length), ext[d] = 1 ∨ str[d]'(by omega) = (ext.drop (d + 1)).prod := by
  induction ext generalizing str with
  | nil =>
    refine ⟨fun _ d h => absurd h (by simp), fun _ idx hi => ?_⟩
    cases hi
    simp [linLoop, rankOf]
  | cons n ns ih =>
    cases str with
    | nil => simp at hl
    | cons s ss =>
      have hpos : ∀ m ∈ ns, 0 < m := fun m hm => hp m (by simp [hm])
      have hn : 0 < n := hp n (by simp)
      have hl' : ss.length = ns.length := by simpa using hl
      have ih' := ih ss hpos hl'
      constructor
      · intro h d hd
        cases d with
        | zero =>
          by_cases h1 : n = 1
          · exact .inl h1
          · refine .inr ?_
            have := h (1 :: List.replicate ns.length 0) (contained_cons.mpr ⟨by omega, contained_zero hpos⟩)
            rw [linLoop, linLoop_acc, linLoop_zero, rankOf, rank_zero] at this
            simpa using this
        | succ d =>
          have := ih'.mp (fun idx hi => by
            have := h (0 :: idx) (contained_cons.mpr ⟨by omega, hi⟩)
            rw [linLoop, linLoop_acc, rankOf] at this
            simpa using this) d (by simpa using hd)
          simpa using this
      · intro h idx hi
        cases idx with
        | nil => cases hi
        | cons i is =>
          rw [contained_cons] at hi
          have ht := ih'.mpr (fun d hd => h (d + 1) (Nat.succ_lt_succ hd)) is hi.2
          rw [linLoop, linLoop_acc, ht, rankOf]
          rcases h 0 (by simp) with h0 | h0
          · have : i = 0 := by
              have : n = 1 := h0
              omega
            rw [this]; ring
          · have : s = ns.prod := by simpa using h0
            rw [this]; ring

/-- **C97** Making a view of rank one from a view of any rank shows the elements of that view, in row-major order, exactly
if every dimension of more than one element is strided by the product of the extents after it -/
theorem C97_flatten_iff (v : View) (p : Int) (hd : v.data = some p) (hp : ∀ n ∈ v.bnd.ext, 0 < n)
    (hl : v.bnd.str.length = v.bnd.ext.length) :
    ∃ w, flatten v = .ok w ∧ w.bnd.ext = [v.bnd.ext.prod] ∧
      ((∀ L, RowMajor v.bnd.ext L → ∀ (k : Nat) (h : k < L.length), w.addr [(k : Int)] = v.addr L[k]) ↔
        ∀ d (h : d < v.bnd.ext.length), v.bnd.ext[d] = 1 ∨ v.bnd.str[d] = (v.bnd.ext.drop (d + 1)).prod) := by
  refine ⟨⟨v.data, ⟨[v.bnd.size], suffixProducts [v.bnd.size]⟩⟩, by simp [flatten, ofExtents_ok], by simp [size_eq], ?_⟩
  rw [← lin_rank_iff v.bnd.ext v.bnd.str hp hl]
  constructor
  · intro h idx hi
    have hb := rank_bounds hi
    have hR := rowMajor_visits hp
    obtain ⟨h1, h2⟩ := hR.getElem hp
    have hk : (rankOf idx v.bnd.ext).toNat < (visits v.bnd.ext).length := by omega
    have := h _ hR (rankOf idx v.bnd.ext).toNat hk
    rw [h2 _ hk] at this
    have hn := nth_contained hp (k := (rankOf idx v.bnd.ext).toNat) (by omega)
    have he : nth v.bnd.ext (rankOf idx v.bnd.ext).toNat = idx := rank_inj hn.1 hi (by rw [hn.2]; omega)
    rw [he] at this
    simp only [View.addr, hd, Option.map_some, linearize_eq, Option.some.injEq] at this
    simp [suffixProducts, linLoop] at this
    omega
  · intro h L hL k hk
    obtain ⟨h1, h2⟩ := hL.getElem hp
    have hn := nth_contained hp (k := k) (by omega)
    rw [h2 k hk]
    simp only [View.addr, hd, Option.map_some, linearize_eq, h _ hn.1, hn.2]
    simp [suffixProducts, linLoop]

/-- the middle two columns of a matrix of two rows and four columns, and two whole rows -/
example : let v : View := ⟨some 1, ⟨[2, 2], [4, 1]⟩⟩
    let w : View := ⟨some 0, ⟨[2, 4], [4, 1]⟩⟩
    flatten v = .ok ⟨some 1, ⟨[4], [1]⟩⟩ ∧ v.addr [1, 0] = some 5 ∧ View.addr ⟨some 1, ⟨[4], [1]⟩⟩ [2] = some 3 ∧
    flatten w = .ok ⟨some 0, ⟨[8], [1]⟩⟩ ∧ w.addr [1, 2] = some 6 ∧ View.addr ⟨some 0, ⟨[8], [1]⟩⟩ [6] = some 6 := by
  decide

/-- **C97** A view of rank one made from a contiguous view has its elements in row-major order -/
theorem C97_flatten_contiguous (ext : List Int) (b : Bounds) (hb : ofExtents ext = .ok b) (p : Int)
    (hn : ∀ n ∈ ext, 0 ≤ n) (mem : List T) :
    ∃ w, flatten ⟨some p, b⟩ = .ok w ∧ w.bnd.ext = [ext.prod] ∧
      ∀ L, RowMajor ext L → (L.length : Int) = ext.prod ∧
        ∀ (k : Nat) (h : k < L.length), w.get mem [(k : Int)] = View.get mem ⟨some p, b⟩ L[k] := by
  rw [ofExtents_ok] at hb
  obtain rfl := Outcome.ok.inj hb
  refine ⟨⟨some p, ⟨[ext.prod], suffixProducts [ext.prod]⟩⟩, by simp [flatten, ofExtents_ok, size_eq], rfl, ?_⟩
  intro L hL
  by_cases hp : ∀ n ∈ ext, 0 < n
  · obtain ⟨h1, h2⟩ := hL.getElem hp
    have := prod_pos' hp
    refine ⟨by omega, fun k hk => ?_⟩
    rw [h2 k hk, get_contiguous, get_contiguous, (nth_contained hp (by omega)).2]
    simp [rankOf]
  · push Not at hp
    obtain ⟨n, h1, h2⟩ := hp
    have h0 : n = 0 := by have := hn n h1; omega
    have hz := prod_zero_of_mem (h0 ▸ h1)
    have : L = [] := by
      apply List.eq_nil_iff_forall_not_mem.mpr
      intro x hx
      have := ((hL.1 x).mp hx).pos n h1
      omega
    subst this
    exact ⟨by simp [hz], fun k hk => absurd hk (by simp)⟩

example : flatten ⟨some 3, ⟨[2, 3], [3, 1]⟩⟩ = .ok ⟨some 3, ⟨[6], [1]⟩⟩ := by decide

/-- **C97** `strided_array_view<T> w(v)` does not show the elements of `v` -/
theorem C97_direct_init_fails : ∃ (v w : View) (idx : Idx), directInit 1 .lvalue v = .ok w ∧ copyInit v = .ok v ∧
    Contained idx v.bnd.ext ∧ w.bnd.ext = v.bnd.ext ∧ w.addr idx ≠ v.addr idx :=
  ⟨⟨some 0, ⟨[2], [3]⟩⟩, ⟨some 0, ⟨[2], [1]⟩⟩, [1], by decide, rfl, by simp [Contained], rfl, by decide⟩

/-- **C97** A strided view copied by direct initialisation has the elements of its source exactly if the rank is not one, or
the source is const or a temporary, or there is one element only, or the stride is one -/
theorem C97_direct_init_iff (src : Source) (v : View) (p : Int) (hd : v.data = some p) (hp : ∀ n ∈ v.bnd.ext, 0 < n)
    (hl : v.bnd.str.length = v.bnd.ext.length) :
    ∃ w, directInit v.bnd.ext.length src v = .ok w ∧ w.bnd.ext = v.bnd.ext ∧
      ((∀ idx, Contained idx v.bnd.ext → w.addr idx = v.addr idx) ↔
        v.bnd.ext.length ≠ 1 ∨ src ≠ .lvalue ∨ v.bnd.ext.prod = 1 ∨ v.bnd.str.prod = 1) := by
  by_cases hc : v.bnd.ext.length = 1 ∧ src = .lvalue
  · obtain ⟨data, ⟨ext, str⟩⟩ := v
    obtain ⟨hc1, rfl⟩ := hc
    simp only at hc1 hd hp hl ⊢
    obtain ⟨n, rfl⟩ := List.length_eq_one_iff.mp hc1
    obtain ⟨s, rfl⟩ := List.length_eq_one_iff.mp hl
    have hn : 0 < n := hp n (by simp)
    subst hd
    refine ⟨⟨some p, ⟨[n], [1]⟩⟩, by simp [directInit, flatten, ofExtents_ok, size_eq, suffixProducts], rfl, ?_⟩
    simp only [List.length_cons, List.length_nil, List.prod_cons, List.prod_nil, mul_one, View.addr, Option.map_some,
      Option.some.injEq, ne_eq, not_true, false_or]
    constructor
    · intro h
      by_cases h1 : n = 1
      · exact .inl h1
      · have := h [1] (contained_cons.mpr ⟨by omega, contained_nil⟩)
        simp [Bounds.linearize, linLoop] at this
        exact .inr this.symm
    · intro h idx hi
      cases hi with
      | cons h0 h1 =>
        cases h1
        rcases h with h | h
        · subst h
          rename_i i
          have : i = 0 := by omega
          simp [this, Bounds.linearize, linLoop]
        · simp [h]
  · refine ⟨v, by rw [directInit, if_neg hc], rfl, fun _ => ?_, fun _ _ _ => rfl⟩
    by_cases h1 : v.bnd.ext.length = 1
    · exact .inr (.inl fun h => hc ⟨h1, h⟩)
    · exact .inl h1

example : directInit 1 .lvalue ⟨some 0, ⟨[5], [2]⟩⟩ = .ok ⟨some 0, ⟨[5], [1]⟩⟩ ∧
    directInit 1 .constLvalue ⟨some 0, ⟨[5], [2]⟩⟩ = .ok ⟨some 0, ⟨[5], [2]⟩⟩ ∧
    directInit 2 .lvalue ⟨some 0, ⟨[5, 2], [9, 3]⟩⟩ = .ok ⟨some 0, ⟨[5, 2], [9, 3]⟩⟩ := by decide

/-- **C97** A static view as a dynamic one, and a dynamic one as a strided one, have the same bounds and the same element at
every index, and so do their slices -/
theorem C97_convert (ext : List Int) (b : Bounds) (hb : ofExtents ext = .ok b) (data : Option Int) (mem : List T) :
    ∃ w, toDynamic ⟨data, b⟩ = .ok w ∧ w.bnd.ext = ext ∧ (toStrided w).bnd.ext = ext ∧
      (∀ idx, w.get mem idx = View.get mem ⟨data, b⟩ idx ∧ (toStrided w).get mem idx = View.get mem ⟨data, b⟩ idx) ∧
      ∀ (i : Nat), ∃ u, w.sliceContiguous i = .ok u ∧ u.bnd.ext = ext.tail ∧ ((toStrided w).sliceStrided i).bnd.ext = ext.tail ∧
        ∀ idx, u.get mem idx = ((toStrided w).sliceStrided i).get mem idx := by
  rw [ofExtents_ok] at hb
  obtain rfl := Outcome.ok.inj hb
  refine ⟨⟨data, ⟨ext, suffixProducts ext⟩⟩, by simp [toDynamic, ofExtents_ok], rfl, rfl, fun idx => ⟨rfl, rfl⟩, fun i => ?_⟩
  refine ⟨⟨data.map (· + i * (suffixProducts ext).headD 0), ⟨ext.tail, suffixProducts ext.tail⟩⟩,
    by simp [View.sliceContiguous, Bounds.sliceContiguous, ofExtents_ok], rfl, rfl, fun idx => ?_⟩
  cases ext with
  | nil => rfl
  | cons n ns => rfl

example : toDynamic ⟨some 2, ⟨[2, 3], [3, 1]⟩⟩ = .ok ⟨some 2, ⟨[2, 3], [3, 1]⟩⟩ := by decide

/-- **C97** `make_array_view(cont, dims...)` is accepted exactly if the container has as many elements as the dimensions ask
for, and then its `k`-th element is the one at the `k`-th index in row-major order -/
theorem C97_make_view_iff (dims : List Int) (mem : List T) :
    ((∃ w, makeView mem.length dims = .ok w) ↔ dims.prod ≤ mem.length) ∧
    ∀ w, makeView mem.length dims = .ok w → w.bnd.ext = dims ∧
      ∀ L, RowMajor dims L → ∀ (k : Nat) (h : k < L.length), ∃ x, mem[k]? = some x ∧ w.get mem L[k] = .ok x := by
  have he : makeView mem.length dims =
      if dims.prod ≤ mem.length then .ok ⟨some 0, ⟨dims, suffixProducts dims⟩⟩ else .assertFail := by
    simp only [makeView, ofExtents_ok, Outcome.bind_ok, ofContainer, size_eq, Outcome.assert]
    by_cases h : dims.prod ≤ mem.length <;> simp [h]
  rw [he]
  by_cases h : dims.prod ≤ mem.length
  · simp only [h, if_true, iff_true]
    refine ⟨⟨_, rfl⟩, ?_⟩
    intro w hw
    obtain rfl := (Outcome.ok.inj hw).symm
    refine ⟨rfl, fun L hL k hk => ?_⟩
    have hp : ∀ n ∈ dims, 0 < n := ((hL.1 L[k]).mp (List.getElem_mem hk)).pos
    obtain ⟨h1, h2⟩ := hL.getElem hp
    have hlt : k < mem.length := by omega
    refine ⟨mem[k], by simp, ?_⟩
    rw [h2 k hk, get_contiguous, (nth_contained hp (by omega)).2, load_eq _ _ (by omega)]
    simp [hlt]
  · simp [h]

example : makeView 6 [2, 3] = .ok ⟨some 0, ⟨[2, 3], [3, 1]⟩⟩ ∧ makeView 5 [2, 3] = .assertFail := by decide

/-- **C97** A cleared view has no elements: no index is in its bounds, its size is zero and iterating visits nothing -/
theorem C97_clear (v : View) (hr : v.bnd.ext ≠ []) (s : Store) (c : Nat) (hs : s c = some (clearView v)) (mem : List T)
    (fuel : Nat) :
    (clearView v).bnd.size = 0 ∧ (∀ idx, ¬ Contained idx (clearView v).bnd.ext) ∧
    (do let x ← sBegin s c
        let y ← sEnd s c
        sForward s mem x y (fuel + 1)) = .ok [] ∧
    (do let x ← cBegin s c
        let y ← cEnd s c
        cForward mem x y (fuel + 1)) = .ok [] := by
  have hm : (0 : Int) ∈ (clearView v).bnd.ext := by
    simp only [clearView, View.default, List.mem_replicate, ne_eq]
    exact ⟨by simpa using hr, trivial⟩
  refine ⟨by rw [size_eq]; exact prod_zero_of_mem hm, fun idx h => absurd (h.pos 0 hm) (by omega), ?_, ?_⟩
  · simp [sBegin, sEnd, hs, sForward, SIt.eq, clearView, View.default, idxEq, beginIdx, endIdx, Outcome.assert]
  · simp [cBegin, cEnd, hs, cForward, CIt.eq, clearView, View.default, Outcome.assert]

example : clearView ⟨some 4, ⟨[2, 3], [3, 1]⟩⟩ = ⟨none, ⟨[0, 0], [0, 0]⟩⟩ := by decide

/-- **C97** Swapping two views makes each iterator of a strided view go on in the other's elements, with the bounds it had -/
theorem C97_swap (s : Store) (a b : Nat) (v w : View) (ha : s a = some v) (hb : s b = some w) (mem : List T) (it : SIt)
    (h : sBegin s a = .ok it) :
    swapViews s a b a = some w ∧ swapViews s a b b = some v ∧ it.get (swapViews s a b) mem = w.get mem (beginIdx v.bnd.ext) := by
  simp only [sBegin, ha, Outcome.ok.injEq] at h
  subst h
  by_cases hab : a = b
  · subst hab
    rw [ha] at hb
    obtain rfl := Option.some.inj hb
    simp [swapViews, ha, SIt.get]
  · have hba : b ≠ a := fun e => hab e.symm
    simp [swapViews, ha, hb, SIt.get, hba]

example : SIt.get (swapViews (fun c => if c = 0 then some ⟨some 0, ⟨[1], [1]⟩⟩ else some ⟨some 2, ⟨[3], [2]⟩⟩) 0 1)
    [5, 6, 7, 8, 9] ⟨0, [1], [0]⟩ = .ok 7 := by decide

end Verif.ArrayView
