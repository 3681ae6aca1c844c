import Verif.ArrayView.Lemmas

/-!
# C39, C40, C42: strides, linearisation, iteration and index comparisons

`Contained idx ext` says that `idx` has one component per extent and lies inside it;
indices are compared with `<` of `List Int`, the lexicographic order.
-/

namespace Verif.ArrayView

/-! ## C39 -/

/-- C39: the strides of bounds made from extents are the row-major strides: stride `i` is the
product of the extents after `i` -/
theorem C39_strides (ext : List Int) :
    ∃ b, ofExtents ext = .ok b ∧ b.ext = ext ∧ b.str.length = ext.length ∧
      ∀ i (h : i < b.str.length), b.str[i] = (ext.drop (i + 1)).prod := by
  refine ⟨⟨ext, suffixProducts ext⟩, ofExtents_ok ext, rfl, by simp [suffixProducts_eq], ?_⟩
  intro i h
  simp [suffixProducts_eq]

example : ofExtents [3, 1, 2] = .ok ⟨[3, 1, 2], [2, 2, 1]⟩ := by decide

/-- C39: `contains` accepts exactly the indices inside the extents -/
theorem C39_contains (idx ext : List Int) (h : idx.length = ext.length) :
    contains idx ext = true ↔ ∀ i (h1 : i < idx.length) (h2 : i < ext.length), 0 ≤ idx[i] ∧ idx[i] < ext[i] := by
  rw [contained_iff_contains idx ext h, Contained, List.forall₂_iff_get]
  simp [h]

example : contains [2, 0, 1] [3, 1, 2] = true ∧ contains [2, -1, 1] [3, 1, 2] = false := by decide

/-- C39: `linearize` numbers the contained indices `0 .. size-1`, one-to-one, onto, and in
lexicographic order -/
theorem C39_linearize (ext : List Int) (hp : ∀ n ∈ ext, 0 < n) :
    ∃ b, ofExtents ext = .ok b ∧ b.size = ext.prod ∧
      (∀ idx, Contained idx ext → 0 ≤ b.linearize idx ∧ b.linearize idx < b.size) ∧
      (∀ m, 0 ≤ m → m < b.size → ∃ idx, Contained idx ext ∧ b.linearize idx = m) ∧
      (∀ x y, Contained x ext → Contained y ext → (b.linearize x < b.linearize y ↔ x < y)) ∧
      (∀ x y, Contained x ext → Contained y ext → b.linearize x = b.linearize y → x = y) := by
  refine ⟨⟨ext, suffixProducts ext⟩, ofExtents_ok ext, size_eq _, ?_⟩
  simp only [linearize_eq, linLoop_rank, size_eq]
  exact ⟨fun idx h => rank_bounds h, fun m h0 h1 => rank_surj ext hp m h0 h1,
    fun x y hx hy => ⟨lt_of_rank_lt hx hy, rank_lt_of_lt hx hy⟩, fun x y hx hy => rank_inj hx hy⟩

example : (∀ n ∈ ([3, 1, 2] : List Int), 0 < n) ∧ Contained [2, 0, 1] [3, 1, 2] := by
  simp [Contained]

theorem totalLoop_eq (r : Int) (ns ss : List Int) : totalLoop r ns ss = r + linLoop 0 (ns.map (· - 1)) ss := by
  induction ns generalizing r ss with
  | nil => simp [totalLoop, linLoop]
  | cons n ns ih =>
    cases ss with
    | nil => simp [totalLoop, linLoop]
    | cons s ss => rw [totalLoop, ih, List.map_cons, linLoop, linLoop_acc (0 + (n - 1) * s)]; ring

theorem linLoop_mono (is ns ss : List Int) (h : Contained is ns) (hs : ∀ s ∈ ss, 0 ≤ s) :
    0 ≤ linLoop 0 is ss ∧ linLoop 0 is ss ≤ linLoop 0 (ns.map (· - 1)) ss := by
  induction h generalizing ss with
  | nil => simp [linLoop]
  | @cons i n is ns h0 h1 ih =>
    cases ss with
    | nil => simp [linLoop]
    | cons s ss =>
      have hs0 := hs s (by simp)
      have := ih ss fun t ht => hs t (by simp [ht])
      rw [List.map_cons, linLoop, linLoop, linLoop_acc, linLoop_acc (0 + (n - 1) * s)]
      constructor
      · nlinarith [mul_nonneg h0.1 hs0]
      · nlinarith [mul_le_mul_of_nonneg_right (show i ≤ n - 1 by omega) hs0]

/-- C39: with any non-negative strides, `total_size()` is one more than the largest offset a
contained index can produce, and no offset is negative -/
theorem C39_total_size (b : Bounds) (hs : ∀ s ∈ b.str, 0 ≤ s) :
    (∀ idx, Contained idx b.ext → 0 ≤ b.linearize idx ∧ b.linearize idx < b.totalSize) ∧
    ((∀ n ∈ b.ext, 0 < n) → ∃ idx, Contained idx b.ext ∧ b.linearize idx = b.totalSize - 1) := by
  simp only [linearize_eq, Bounds.totalSize, totalLoop_eq]
  refine ⟨fun idx h => ?_, fun hp => ⟨_, contained_last hp, by ring⟩⟩
  have := linLoop_mono idx b.ext b.str h hs
  omega

example : (ofStrides [3, 2] [10, 4]).totalSize = 25 ∧ (ofStrides [3, 2] [10, 4]).size = 6 := by decide

/-- C39: for contiguous bounds `total_size` as computed from the strides is `size` -/
theorem C39_total_size_contiguous (ext : List Int) :
    ∃ b, ofExtents ext = .ok b ∧ b.totalSize = b.size := by
  refine ⟨_, ofExtents_ok ext, ?_⟩
  rw [Bounds.totalSize, totalLoop_eq, linLoop_rank, rank_last, size_eq]; ring

/-- C39 fails for `contiguous_bounds` built from a C array: the strides are set to the extents,
so a contained index is linearised past the end -/
theorem C39_array_ctor_fails :
    let b := contiguousOfArray [2, 3]
    contains [1, 2] b.ext = true ∧ b.size = 6 ∧ b.linearize [1, 2] = 8 ∧
      (∃ m, 0 ≤ m ∧ m < b.size ∧ ∀ i j : Fin 3, b.linearize [i.val, j.val] ≠ m) := by
  refine ⟨by decide, by decide, by decide, 1, by decide, by decide, by decide⟩

/-- C39 fails after writing an extent of `contiguous_bounds` through its mutable `operator[]`:
the strides are those of the old extents -/
theorem C39_set_extent_fails :
    ∃ b, ofExtents [2, 3] = .ok b ∧ (setExtent b 1 2).size = 4 ∧
      contains [1, 1] (setExtent b 1 2).ext = true ∧ (setExtent b 1 2).linearize [1, 1] = 4 := by
  exact ⟨⟨[2, 3], [3, 1]⟩, by decide, by decide, by decide, by decide⟩

/-- every contained index of the view reads inside the buffer -/
def InBuffer (n : Nat) (v : View) : Prop :=
  ∀ idx, Contained idx v.bnd.ext → ∃ p, v.addr idx = some p ∧ 0 ≤ p ∧ p < n

theorem load_ok (mem : List T) (p : Int) (h0 : 0 ≤ p) (h1 : p < mem.length) :
    ∃ h : p.toNat < mem.length, load mem p = .ok mem[p.toNat] := by
  have h : p.toNat < mem.length := by omega
  exact ⟨h, by simp [load, h0, h]⟩

/-- C39: a contiguous view whose constructor's check passed never addresses outside its
container; distinct indices address distinct elements -/
theorem C39_view_in_container (n : Nat) (ext : List Int) (b : Bounds) (v : View) (hb : ofExtents ext = .ok b)
    (hv : ofContainer n b = .ok v) :
    InBuffer n v ∧
    ∀ x y, Contained x ext → Contained y ext → v.addr x = v.addr y → x = y := by
  rw [ofExtents_ok] at hb
  obtain rfl := Outcome.ok.inj hb
  unfold ofContainer at hv
  by_cases hc : ((n : Int) ≥ (⟨ext, suffixProducts ext⟩ : Bounds).size)
  · simp only [hc, decide_true, Outcome.assert_true, Outcome.bind_ok] at hv
    obtain rfl := Outcome.ok.inj hv
    rw [size_eq] at hc
    constructor
    · intro idx hidx
      have : 0 ≤ rankOf idx ext ∧ rankOf idx ext < ext.prod := rank_bounds hidx
      refine ⟨rankOf idx ext, by simp [View.addr, linearize_eq, linLoop_rank], this.1, ?_⟩
      dsimp only at hc
      omega
    · intro x y hx hy h
      simp only [View.addr, linearize_eq, linLoop_rank, Option.map_some, Option.some.injEq] at h
      exact rank_inj hx hy (by omega)
  · simp [hc] at hv

example : ofContainer 6 ⟨[2, 3], [3, 1]⟩ = .ok ⟨some 0, ⟨[2, 3], [3, 1]⟩⟩ := by decide

/-- C39: the container constructor rejects a container smaller than the bounds -/
theorem C39_container_check (n : Nat) (b : Bounds) :
    ofContainer n b = if b.ext.prod ≤ n then .ok ⟨some 0, b⟩ else .assertFail := by
  rw [ofContainer, size_eq]
  by_cases h : b.ext.prod ≤ n <;> simp [h]

/-- C39 fails for a strided view over a container: the check compares the number of elements
viewed, not the span they cover, so a contained index reads past the container -/
theorem C39_strided_container_fails :
    ∃ v, ofContainer 4 (ofStrides [2] [5]) = .ok v ∧ contains [1] v.bnd.ext = true ∧
      v.at' [10, 11, 12, 13] [1] = .ub := by
  exact ⟨⟨some 0, ⟨[2], [5]⟩⟩, by decide, by decide, by decide⟩

/-- C39 for strided views, as far as it holds: if the container covers `total_size()` and no
stride is negative, every contained index stays inside.  (Missing: the constructor does not
check this.) -/
theorem C39_strided_container_partial (n : Nat) (b : Bounds) (v : View) (hs : ∀ s ∈ b.str, 0 ≤ s)
    (hn : b.totalSize ≤ n) (hv : ofContainer n b = .ok v) : InBuffer n v := by
  rw [C39_container_check] at hv
  split at hv
  · obtain rfl := Outcome.ok.inj hv
    intro idx hidx
    have := (C39_total_size b hs).1 idx hidx
    exact ⟨b.linearize idx, by simp [View.addr], this.1, by omega⟩
  · simp at hv

example : ofContainer 25 (ofStrides [3, 2] [10, 4]) = .ok ⟨some 0, ⟨[3, 2], [10, 4]⟩⟩ ∧
    (ofStrides [3, 2] [10, 4]).totalSize ≤ 25 := by decide

/-! ## C40 -/

theorem collectFrom_spec (b : List Int) (hb : b ≠ List.replicate b.length 0) (k : Nat) :
    ∀ x, Contained x (b.map (max 1)) → (b.map (max 1)).prod - rankOf x (b.map (max 1)) = k →
    ∀ fuel, k < fuel → ∃ L, collectFrom b x fuel = .ok L ∧ (∀ y ∈ L, Contained y (b.map (max 1))) ∧
      L.map (rankOf · (b.map (max 1))) = (List.range k).map (fun j : Nat => rankOf x (b.map (max 1)) + j) := by
  induction k with
  | zero => intro x hx h; have := rank_bounds hx; omega
  | succ k ih =>
    intro x hx hk fuel hf
    have hne : idxEq x (endIdx b) = false := by
      simp only [idxEq, endIdx, beq_eq_false_iff_ne, ne_eq]
      intro e
      apply hb
      rw [e] at hx
      clear hk e ih hf hb
      have hx' : List.Forall₂ (fun i n => 0 ≤ i ∧ i < n) b (b.map (max 1)) := hx
      rw [List.forall₂_map_right_iff, List.forall₂_same] at hx'
      rw [List.eq_replicate_iff]
      refine ⟨rfl, fun n hn => ?_⟩
      have := hx' n hn
      omega
    cases fuel with
    | zero => omega
    | succ fuel =>
      rw [collectFrom, hne]
      have hstep : (Contained (inc b x) (b.map (max 1)) ∧
          rankOf (inc b x) (b.map (max 1)) = rankOf x (b.map (max 1)) + 1) ∨
          (inc b x = b ∧ rankOf x (b.map (max 1)) = (b.map (max 1)).prod - 1) := by
        have h1 := incLoop_max b x hx
        have h2 := incLoop_spec hx
        rw [List.length_map, ← h1] at h2
        unfold inc
        rcases h2 with ⟨y, h3, h4, h5⟩ | ⟨h3, h4⟩
        · left; rw [h3]; exact ⟨h4, h5⟩
        · right; rw [h3]; exact ⟨rfl, h4⟩
      rcases hstep with ⟨h1, h2⟩ | ⟨h1, h2⟩
      · obtain ⟨L, hL, hc, hr⟩ := ih (inc b x) h1 (by rw [h2]; push_cast at hk; omega) fuel (by omega)
        refine ⟨x :: L, by rw [hL]; simp, ?_, ?_⟩
        · intro y hy
          rcases List.mem_cons.mp hy with rfl | hy
          · exact hx
          · exact hc y hy
        · rw [List.map_cons, hr, List.range_succ_eq_map, List.map_cons, List.map_map, h2]
          simp only [Nat.cast_zero, add_zero, List.cons.injEq, true_and]
          apply List.map_congr_left
          intro j _
          simp only [Function.comp_apply]
          push_cast
          ring
      · have hk0 : k = 0 := by rw [h2] at hk; push_cast at hk; omega
        subst hk0
        cases fuel with
        | zero => omega
        | succ fuel =>
          refine ⟨[x], ?_, by simpa using hx, by simp⟩
          rw [h1]
          simp [collectFrom, idxEq, endIdx]

theorem collect_all (b : List Int) (hb : b ≠ List.replicate b.length 0) (fuel : Nat)
    (hf : (b.map (max 1)).prod < fuel) :
    ∃ L, collectFrom b (beginIdx b) fuel = .ok L ∧
      (∀ idx, idx ∈ L ↔ Contained idx (b.map (max 1))) ∧ L.Pairwise (· < ·) ∧
      (L.length : Int) = (b.map (max 1)).prod := by
  have hp : ∀ n ∈ b.map (max 1), 0 < n := by
    intro n hn
    obtain ⟨m, _, rfl⟩ := List.mem_map.mp hn
    omega
  have hpos := prod_pos' hp
  have hz := contained_zero hp
  rw [List.length_map] at hz
  have hr := rank_zero (b.map (max 1))
  rw [List.length_map] at hr
  obtain ⟨L, hL, hc, hm⟩ := collectFrom_spec b hb (b.map (max 1)).prod.toNat (beginIdx b) hz
    (by rw [beginIdx, hr]; omega) fuel (by omega)
  rw [beginIdx, hr] at hm
  have hlen : L.length = (b.map (max 1)).prod.toNat := by
    have := congrArg List.length hm
    simpa using this
  refine ⟨L, hL, ?_, ?_, by omega⟩
  · intro idx
    refine ⟨hc idx, fun hidx => ?_⟩
    have h1 := rank_bounds hidx
    have : rankOf idx (b.map (max 1)) ∈ L.map (rankOf · (b.map (max 1))) := by
      rw [hm, List.mem_map]
      exact ⟨(rankOf idx (b.map (max 1))).toNat, List.mem_range.mpr (by omega), by omega⟩
    obtain ⟨y, hy, he⟩ := List.mem_map.mp this
    rw [← rank_inj (hc y hy) hidx he]
    exact hy
  · have h1 : (L.map (rankOf · (b.map (max 1)))).Pairwise (· < ·) := by
      rw [hm, List.pairwise_map]
      exact List.pairwise_lt_range.imp (fun h => by omega)
    rw [List.pairwise_map] at h1
    exact h1.imp_of_mem fun ha hb' h => lt_of_rank_lt (hc _ ha) (hc _ hb') h

/-- C40: iterating from `begin` to `end` visits each contained index exactly once, in
lexicographic order, in exactly `size()` steps (positive extents, any rank) -/
theorem C40_iteration (ext : List Int) (hr : ext ≠ []) (hp : ∀ n ∈ ext, 0 < n) (fuel : Nat) (hf : ext.prod < fuel) :
    ∃ L, collectFrom ext (beginIdx ext) fuel = .ok L ∧ (∀ idx, idx ∈ L ↔ Contained idx ext) ∧
      L.Pairwise (· < ·) ∧ (L.length : Int) = ext.prod := by
  have hm : ext.map (max 1) = ext := by
    conv_rhs => rw [← List.map_id ext]
    apply List.map_congr_left
    intro n hn
    have := hp n hn
    simp only [id_eq]
    omega
  have := collect_all ext ?_ fuel
  · rw [hm] at this
    exact this hf
  · intro h
    cases ext with
    | nil => exact hr rfl
    | cons n ns =>
      have h1 := hp n (by simp)
      rw [List.length_cons, List.replicate_succ] at h
      have := (List.cons.inj h).1
      omega

example : collectFrom [2, 1, 2] (beginIdx [2, 1, 2]) 9 =
    .ok [[0, 0, 0], [0, 0, 1], [1, 0, 0], [1, 0, 1]] := by decide

/-- C40 fails when an extent is zero: the range of `(0, 3)` holds no index, yet iterating it
yields three indices, none of them contained -/
theorem C40_zero_extent_fails :
    collectFrom [0, 3] (beginIdx [0, 3]) 9 = .ok [[0, 0], [0, 1], [0, 2]] ∧
    (∀ b, ofExtents [0, 3] = .ok b → b.size = 0) ∧
    (∀ idx ∈ ([[0, 0], [0, 1], [0, 2]] : List Idx), contains idx [0, 3] = false) := by
  refine ⟨by decide, ?_, by decide⟩
  intro b hb
  rw [ofExtents_ok] at hb
  obtain rfl := Outcome.ok.inj hb
  decide

/-- C40, what iteration does for every choice of extents: nothing if all are zero, otherwise it
enumerates the indices of the shape in which every extent below one is replaced by one -/
theorem C40_iteration_any (ext : List Int) (fuel : Nat) (hf : (ext.map (max 1)).prod < fuel) :
    ((∀ n ∈ ext, n = 0) → collectFrom ext (beginIdx ext) fuel = .ok []) ∧
    (¬ (∀ n ∈ ext, n = 0) → ∃ L, collectFrom ext (beginIdx ext) fuel = .ok L ∧
      (∀ idx, idx ∈ L ↔ Contained idx (ext.map (max 1))) ∧ L.Pairwise (· < ·) ∧
      (L.length : Int) = (ext.map (max 1)).prod) := by
  constructor
  · intro h
    have : ext = List.replicate ext.length 0 := List.eq_replicate_iff.mpr ⟨rfl, h⟩
    cases fuel with
    | zero =>
      have : 0 < (ext.map (max 1)).prod := prod_pos' (by
        intro n hn
        obtain ⟨m, _, rfl⟩ := List.mem_map.mp hn
        omega)
      simp at hf; omega
    | succ fuel => rw [collectFrom]; simp [idxEq, beginIdx, endIdx, ← this]
  · intro h
    apply collect_all ext _ fuel hf
    intro h1
    exact h (List.eq_replicate_iff.mp h1).2

/-- C40: one step forward and one step back is the identity at every contained index,
including from the last index to `end` and back -/
theorem C40_dec_inc (ext x : List Int) (hr : ext ≠ []) (hx : Contained x ext) : dec ext (inc ext x) = .ok x := by
  rcases inc_spec hx with ⟨h1, h2⟩ | ⟨h1, h2⟩
  · rw [dec, idxGe_contained h1 hr]
    rcases decLoop_spec h1 with ⟨y, h3, h4, h5⟩ | ⟨_, h4⟩
    · rw [h3]
      simp [rank_inj h4 hx (by omega)]
    · have := rank_bounds hx; omega
  · rw [h1, dec, idxGe_self]
    have h3 := contained_last (Contained.pos hx)
    have h4 := rank_last ext
    simp [rank_inj h3 hx (by omega)]

example : Contained [1, 2] [2, 3] ∧ inc [2, 3] [1, 2] = [2, 3] ∧ dec [2, 3] [2, 3] = .ok [1, 2] := by
  refine ⟨by simp [Contained], by decide, by decide⟩

/-- C40: one step back and one step forward is the identity at every index but the first;
stepping back from the first throws -/
theorem C40_inc_dec (ext x : List Int) (hr : ext ≠ []) (hx : Contained x ext) :
    (x ≠ beginIdx ext → ∃ y, dec ext x = .ok y ∧ Contained y ext ∧ inc ext y = x ∧ y < x) ∧
    (x = beginIdx ext → dec ext x = .throws "runtime_error") := by
  have hz := contained_zero (Contained.pos hx)
  have hz0 := rank_zero ext
  rw [dec, idxGe_contained hx hr]
  rcases decLoop_spec hx with ⟨y, h3, h4, h5⟩ | ⟨h3, h4⟩
  · rw [h3]
    refine ⟨fun _ => ⟨y, by simp, h4, ?_, lt_of_rank_lt h4 hx (by omega)⟩, fun h => ?_⟩
    · rcases inc_spec h4 with ⟨h6, h7⟩ | ⟨_, h7⟩
      · exact rank_inj h6 hx (by omega)
      · have := rank_bounds hx; omega
    · have h6 : rankOf x ext = 0 := by rw [h]; exact hz0
      have := rank_bounds h4; omega
  · rw [h3]
    refine ⟨fun h => absurd (rank_inj hx hz (h4.trans hz0.symm)) h, fun _ => by simp⟩

/-- back over a row boundary -/
example : ∃ y, dec [2, 3] [1, 0] = .ok y ∧ Contained y [2, 3] ∧ inc [2, 3] y = [1, 0] ∧ y < [1, 0] :=
  (C40_inc_dec [2, 3] [1, 0] (by simp) (by simp [Contained])).1 (by decide)

/-! ### advancing and differences -/

theorem itLinLoop_zero (is ns : List Int) (h : is.length = ns.length) :
    itLinLoop 0 0 is ns = (rankOf is ns, ns.prod) := by
  induction is generalizing ns with
  | nil => cases ns with
    | nil => rfl
    | cons _ _ => simp at h
  | cons i is ih =>
    cases ns with
    | nil => simp at h
    | cons n ns =>
      rw [itLinLoop, ih ns (by simpa using h), rankOf, List.prod_cons]
      simp only [Prod.mk.injEq]
      constructor <;> ring

theorem itLinLoop_end (ns : List Int) : itLinLoop 1 1 ns ns = (ns.prod, ns.prod) := by
  induction ns with
  | nil => rfl
  | cons n ns ih =>
    rw [itLinLoop, ih, List.prod_cons]
    simp only [Prod.mk.injEq]
    constructor <;> ring

theorem itLinearize_contained {ns x : List Int} (hr : ns ≠ []) (hx : Contained x ns) :
    itLinearize ns x = rankOf x ns := by
  rw [itLinearize, idxGe_contained hx hr, if_neg (by simp), itLinLoop_zero x ns hx.len]

theorem itLinearize_end (ns : List Int) : itLinearize ns ns = ns.prod := by
  rw [itLinearize, idxGe_self, if_pos rfl, itLinLoop_end]

/-- C40: `n` increments -/
def incN (ext : List Int) : Nat → List Int → List Int
  | 0, x => x
  | n + 1, x => incN ext n (inc ext x)

theorem incN_rank {ext x : List Int} (n : Nat) (hx : Contained x ext) :
    (rankOf x ext + n < ext.prod → Contained (incN ext n x) ext ∧ rankOf (incN ext n x) ext = rankOf x ext + n) ∧
    (rankOf x ext + n = ext.prod → incN ext n x = ext) := by
  induction n generalizing x with
  | zero =>
    refine ⟨fun _ => ⟨hx, by simp [incN]⟩, fun h => ?_⟩
    have := rank_bounds hx
    simp at h; omega
  | succ n ih =>
    rw [incN]
    push_cast
    rcases inc_spec hx with ⟨h1, h2⟩ | ⟨h1, h2⟩
    · have := ih h1
      rw [h2] at this
      refine ⟨fun h => ?_, fun h => this.2 (by omega)⟩
      have := this.1 (by omega)
      exact ⟨this.1, by rw [this.2]; ring⟩
    · refine ⟨fun h => by omega, fun h => ?_⟩
      have : n = 0 := by omega
      rw [this, incN, h1]

/-- C40: the difference of two iterators counts the steps between them: going `n` steps from a
contained index to another index or to `end` makes a difference of `n` -/
theorem C40_difference (ext x : List Int) (hr : ext ≠ []) (hx : Contained x ext) (n : Nat) (y : List Int)
    (hy : Contained y ext ∨ y = endIdx ext) :
    incN ext n x = y ∧ (∀ m < n, Contained (incN ext m x) ext) ↔ itDiff ext y x = n := by
  have hb := rank_bounds hx
  rw [itDiff, itLinearize_contained hr hx]
  have key := incN_rank n hx
  constructor
  · rintro ⟨h1, h2⟩
    have hstep : rankOf x ext + n ≤ ext.prod := by
      by_contra hgt
      have hm : (ext.prod - rankOf x ext).toNat < n := by omega
      have := h2 _ hm
      have h3 := (incN_rank (ext.prod - rankOf x ext).toNat hx).2 (by omega)
      rw [h3] at this
      have h4 := itLinearize_contained hr this
      rw [itLinearize_end] at h4
      have := rank_bounds this
      omega
    rcases lt_or_eq_of_le hstep with h3 | h3
    · have := key.1 h3
      rw [h1] at this
      rw [itLinearize_contained hr this.1]; omega
    · have := key.2 h3
      rw [← h1, this, itLinearize_end]; omega
  · intro h
    have hmid : ∀ m < n, rankOf x ext + n ≤ ext.prod → Contained (incN ext m x) ext := fun m hm hle =>
      ((incN_rank m hx).1 (by omega)).1
    rcases hy with hy | hy
    · rw [itLinearize_contained hr hy] at h
      have hyb := rank_bounds hy
      have := key.1 (by omega)
      exact ⟨rank_inj this.1 hy (by omega), fun m hm => hmid m hm (by omega)⟩
    · have hy : y = ext := hy
      rw [hy, itLinearize_end] at h
      exact ⟨(key.2 (by omega)).trans hy.symm, fun m hm => hmid m hm (by omega)⟩

/-- C40: in particular `end - begin` is the number of contained indices -/
theorem C40_end_minus_begin (ext : List Int) (hr : ext ≠ []) (hp : ∀ n ∈ ext, 0 < n) :
    itDiff ext (endIdx ext) (beginIdx ext) = ext.prod := by
  have h1 : itLinearize ext (endIdx ext) = ext.prod := itLinearize_end ext
  have h2 : itLinearize ext (beginIdx ext) = 0 :=
    (itLinearize_contained hr (contained_zero hp)).trans (rank_zero ext)
  rw [itDiff, h1, h2]; ring

example : itDiff [2, 3] [2, 3] [0, 1] = 5 ∧ incN [2, 3] 5 [0, 1] = [2, 3] := by decide

theorem advStrides_eq (ns : List Int) : advStrides ns = suffixProducts ns := by
  induction ns with
  | nil => rfl
  | cons n ns ih =>
    cases ns with
    | nil => rfl
    | cons m ms =>
      rw [advStrides, ih]
      simp only [suffixProducts, List.prod_cons]
      rw [mul_comm]

theorem advLoop_spec (ns : List Int) (hp : ∀ n ∈ ns, 0 < n) (m : Int) (h0 : 0 ≤ m) (h1 : m < ns.prod) :
    ∃ c, advLoop m (suffixProducts ns) = .ok c ∧ Contained c ns ∧ rankOf c ns = m := by
  induction ns generalizing m with
  | nil => exact ⟨[], rfl, contained_nil, by simp at h1; simp [rankOf]; omega⟩
  | cons n ns ih =>
    have hpos := prod_pos' (ns := ns) fun m hm => hp m (by simp [hm])
    have e1 : m.tmod ns.prod = m % ns.prod := Int.tmod_eq_emod_of_nonneg h0
    have e2 : m.tdiv ns.prod = m / ns.prod := Int.tdiv_eq_ediv_of_nonneg h0
    obtain ⟨c, h2, h3, h4⟩ := ih (fun m hm => hp m (by simp [hm])) (m % ns.prod)
      (Int.emod_nonneg _ hpos.ne') (Int.emod_lt_of_pos _ hpos)
    refine ⟨m / ns.prod :: c, ?_, contained_cons.mpr ⟨⟨Int.ediv_nonneg h0 hpos.le, ?_⟩, h3⟩, ?_⟩
    · rw [suffixProducts, advLoop, if_neg hpos.ne', e1, e2, h2]; rfl
    · rw [List.prod_cons] at h1
      exact Int.ediv_lt_of_lt_mul hpos h1
    · rw [rankOf, h4, mul_comm]
      exact Int.mul_ediv_add_emod m ns.prod

theorem contained_between {c ns : List Int} (h : Contained c ns) :
    idxGe c (beginIdx ns) = true ∧ idxGe ns c = true := by
  constructor
  · rw [idxGe_iff _ _ (by rw [beginIdx, List.length_replicate, h.len])]
    induction h with
    | nil => exact .nil
    | cons h0 _ ih =>
      rw [beginIdx, List.length_cons, List.replicate_succ]
      exact .cons h0.1 ih
  · rw [idxGe_iff _ _ h.len.symm]
    induction h with
    | nil => exact .nil
    | cons h0 _ ih => exact .cons h0.2.le ih

theorem advance_spec (ext : List Int) (hp : ∀ n ∈ ext, 0 < n) (x : List Int) (n : Int)
    (h0 : 0 ≤ itLinearize ext x + n) (h1 : itLinearize ext x + n < ext.prod) :
    ∃ c, advance ext x n = .ok c ∧ Contained c ext ∧ rankOf c ext = itLinearize ext x + n := by
  obtain ⟨c, h2, h3, h4⟩ := advLoop_spec ext hp _ h0 h1
  refine ⟨c, ?_, h3, h4⟩
  have := contained_between h3
  rw [advance, advStrides_eq, h2]
  simp [this.1, this.2]

/-- C40: advancing by `n` from any position (contained or `end`) to a contained position lands
on the index `n` steps away: `n` increments forward, and `n` increments from there bring back
when moving backward -/
theorem C40_advance (ext x : List Int) (hr : ext ≠ []) (hp : ∀ n ∈ ext, 0 < n)
    (hx : Contained x ext ∨ x = endIdx ext) (n : Nat) :
    (Contained (incN ext n x) ext → Contained x ext → advance ext x n = .ok (incN ext n x)) ∧
    (∀ y, Contained y ext → incN ext n y = x → (∀ m < n, Contained (incN ext m y) ext) →
      advance ext x (-n) = .ok y) := by
  constructor
  · intro hc hx
    have hb := rank_bounds hx
    have hlt : rankOf x ext + n < ext.prod := by
      by_contra hge
      have aux : ∀ k : Nat, ∀ z, Contained z ext → rankOf z ext + k ≥ ext.prod → incN ext k z = ext := by
        intro k
        induction k with
        | zero => intro z hz h; have := rank_bounds hz; simp at h; omega
        | succ k ih =>
          intro z hz h
          rw [incN]
          rcases inc_spec hz with ⟨h1, h2⟩ | ⟨h1, h2⟩
          · exact ih _ h1 (by push_cast at h; omega)
          · rw [h1]
            clear h ih
            induction k with
            | zero => rfl
            | succ k ih =>
              rw [incN]
              have : inc ext ext = ext := by
                have hl : ∀ ns : List Int, ∃ r, incLoop ns ns ns.length = .fell r := by
                  intro ns
                  induction ns with
                  | nil => exact ⟨[], rfl⟩
                  | cons m ms ihm =>
                    obtain ⟨r, hr⟩ := ihm
                    refine ⟨0 :: r, ?_⟩
                    rw [List.length_cons, incLoop_cons, hr]
                    simp
                obtain ⟨r, hr⟩ := hl ext
                rw [inc, hr]
              rw [this, ih]
      rw [aux n x hx (by omega)] at hc
      have := itLinearize_contained hr hc
      rw [itLinearize_end] at this
      have := rank_bounds hc
      omega
    have hl := itLinearize_contained hr hx
    obtain ⟨c, h1, h2, h3⟩ := advance_spec ext hp x n (by omega) (by omega)
    rw [h1]
    have := (incN_rank n hx).1 hlt
    rw [rank_inj h2 this.1 (by omega)]
  · intro y hy h1 h2
    have hb := rank_bounds hy
    have hd := (C40_difference ext y hr hy n x hx).mp ⟨h1, h2⟩
    rw [itDiff, itLinearize_contained hr hy] at hd
    obtain ⟨c, h3, h4, h5⟩ := advance_spec ext hp x (-n) (by omega) (by omega)
    rw [h3, rank_inj h4 hy (by omega)]

example : advance [2, 3] [0, 1] 3 = .ok [1, 1] ∧ advance [2, 3] [2, 3] (-1) = .ok [1, 2] := by decide

/-- C40 fails for advancing to the end when the rank exceeds one: `begin + size` is not `end`
(and, for rank above one, `operator+=` does not even compile, see the model) -/
theorem C40_advance_end_fails :
    advance [2, 3] (beginIdx [2, 3]) 6 = .ok [2, 0] ∧ ([2, 0] : Idx) ≠ endIdx [2, 3] ∧
      incN [2, 3] 6 (beginIdx [2, 3]) = endIdx [2, 3] := by decide

/-- C40 for rank one: advancing works for every offset that stays within `[begin, end]`, and
asserts for every other offset -/
theorem C40_advance_rank_one (k i n : Int) (hi : 0 ≤ i ∧ i ≤ k) :
    advance [k] [i] n = if 0 ≤ i + n ∧ i + n ≤ k then .ok [i + n] else .assertFail := by
  have hl : itLinearize [k] [i] = i := by
    by_cases h : i < k
    · rw [itLinearize_contained (by simp) (contained_cons.mpr ⟨⟨hi.1, h⟩, contained_nil⟩)]
      simp [rankOf]
    · have : i = k := by omega
      rw [this, itLinearize_end]; simp
  rw [advance, hl]
  simp only [advStrides, advLoop, one_ne_zero, if_false, Int.tdiv_one, Outcome.bind_ok, beginIdx,
    List.length_cons, List.length_nil, List.replicate_succ, List.replicate_zero, idxGe, idxGt, idxLt]
  by_cases h : 0 ≤ i + n ∧ i + n ≤ k
  · have h1 : ¬ (i + n < 0) := by omega
    have h2 : ¬ (k < i + n) := by omega
    rw [if_pos h]; simp [h1, h2]
  · rw [if_neg h]
    by_cases h1 : i + n < 0
    · simp [h1]
    · have h2 : k < i + n := by omega
      simp [h2]

example : advance [5] [1] 4 = .ok [5] ∧ advance [5] [1] 5 = .assertFail :=
  ⟨(C40_advance_rank_one 5 1 4 (by norm_num)).trans (by norm_num),
    (C40_advance_rank_one 5 1 5 (by norm_num)).trans (by norm_num)⟩

/-! ## C42 -/

/-- C42: `==` is an equivalence and means equality of all components; `!=` is its negation -/
theorem C42_eq (a b c : List Int) :
    (idxEq a b = true ↔ a = b) ∧ (idxNe a b = true ↔ a ≠ b) ∧ idxEq a a = true ∧
    (idxEq a b = true → idxEq b a = true) ∧ (idxEq a b = true → idxEq b c = true → idxEq a c = true) := by
  simp only [idxEq, idxNe, beq_iff_eq, Bool.not_eq_true', beq_eq_false_iff_ne, ne_eq, true_and]
  exact ⟨fun h => h.symm, fun h h' => h.trans h'⟩

/-- C42 fails: `<` is not a strict order (each of two indices is less than the other) and `<=`
does not mean `<` or `==` -/
theorem C42_lt_fails :
    (idxLt [0, 1] [1, 0] = true ∧ idxLt [1, 0] [0, 1] = true) ∧
    (idxLt [0, 1] [1, 0] = true ∧ idxLe [0, 1] [1, 0] = false) ∧
    -- `<` is not transitive
    (idxLt [1, 0] [0, 1] = true ∧ idxLt [0, 1] [1, -1] = true ∧ idxLt [1, 0] [1, -1] = false) := by decide

/-- C42: what the operators do compute: `<` asks for some smaller component, `<=` and `>=`
compare all components, and `>`, `>=` are the converses of `<`, `<=` -/
theorem C42_meaning (a b : List Int) (h : a.length = b.length) :
    (idxLt a b = true ↔ ∃ i, ∃ (h1 : i < a.length) (h2 : i < b.length), a[i] < b[i]) ∧
    (idxLe a b = true ↔ ∀ i (h1 : i < a.length) (h2 : i < b.length), a[i] ≤ b[i]) ∧
    (idxGt a b = idxLt b a) ∧ (idxGe a b = idxLe b a) := by
  have h1 := idxLt_iff a b h
  have h2 := idxLt_iff b a h.symm
  rw [List.forall₂_iff_get] at h1 h2
  simp only [h, true_and, List.get_eq_getElem] at h1 h2
  refine ⟨?_, ?_, rfl, rfl⟩
  · rw [← Bool.not_eq_false, h1]
    push Not
    constructor
    · rintro ⟨i, hi, hi', hlt⟩; exact ⟨i, by omega, hi', hlt⟩
    · rintro ⟨i, hi, hi', hlt⟩; exact ⟨i, by omega, hi', hlt⟩
  · rw [idxLe, Bool.not_eq_true', h2]
    exact ⟨fun hh i h3 h4 => hh i (by omega) (by omega), fun hh i h3 h4 => hh i (by omega) (by omega)⟩

example : idxLe [1, 2] [1, 3] = true ∧ idxLt [1, 2] [1, 3] = true ∧ idxGe [1, 2] [1, 3] = false := by decide

/-- C42: `<=` is a partial order compatible with `==` -/
theorem C42_le_partial_order (a b c : List Int) (h1 : a.length = b.length) (h2 : b.length = c.length) :
    idxLe a a = true ∧ (idxLe a b = true → idxLe b a = true → idxEq a b = true) ∧
    (idxLe a b = true → idxLe b c = true → idxLe a c = true) := by
  have e1 := (C42_meaning a a rfl).2.1
  have e2 := (C42_meaning a b h1).2.1
  have e3 := (C42_meaning b a h1.symm).2.1
  have e4 := (C42_meaning b c h2).2.1
  have e5 := (C42_meaning a c (h1.trans h2)).2.1
  refine ⟨e1.mpr fun i _ _ => le_refl _, fun h h' => ?_, fun h h' => ?_⟩
  · rw [e2] at h; rw [e3] at h'
    rw [idxEq, beq_iff_eq]
    apply List.ext_getElem h1
    intro i hi hj
    exact le_antisymm (h i hi hj) (h' i hj hi)
  · rw [e2] at h; rw [e4] at h'
    exact e5.mpr fun i hi hj => le_trans (h i hi (by omega)) (h' i (by omega) hj)

/-- two incomparable indices and one above both -/
example : idxLe [1, 2] [2, 1] = false ∧ idxLe [2, 1] [1, 2] = false ∧
    (idxLe [1, 1] [1, 2] = true → idxLe [1, 2] [3, 2] = true → idxLe [1, 1] [3, 2] = true) :=
  ⟨by decide, by decide, (C42_le_partial_order [1, 1] [1, 2] [3, 2] rfl rfl).2.2⟩

/-- C42 for rank one, where it holds in full (missing: every larger rank, see `C42_lt_fails`) -/
theorem C42_rank_one_partial (a b c : Int) :
    (idxLt [a] [b] = true ↔ a < b) ∧ (idxLe [a] [b] = true ↔ idxLt [a] [b] = true ∨ idxEq [a] [b] = true) ∧
    idxLt [a] [a] = false ∧ (idxLt [a] [b] = true → idxLt [b] [a] = false) ∧
    (idxLt [a] [b] = true → idxLt [b] [c] = true → idxLt [a] [c] = true) := by
  simp only [idxLt, idxLe, idxEq, Bool.if_false_right, Bool.and_true, decide_eq_true_eq,
    decide_eq_false_iff_not, Bool.not_eq_true', beq_iff_eq, List.cons.injEq, and_true]
  grind

theorem zeros_le (a b : List Int) (n : Nat) :
    idxLt (a ++ List.replicate n 0) (b ++ List.replicate n 0) = idxLt a b ∨ a.length ≠ b.length := by
  by_cases h : a.length = b.length
  · left
    induction a generalizing b with
    | nil =>
      cases b with
      | nil =>
        simp only [List.nil_append]
        induction n with
        | zero => rfl
        | succ n ih => rw [List.replicate_succ, idxLt, if_neg (by omega), ih]
      | cons => simp at h
    | cons x a ih =>
      cases b with
      | nil => simp at h
      | cons y b => rw [List.cons_append, List.cons_append, idxLt, idxLt, ih b (by simpa using h)]
  · exact Or.inr h

/-- C42, the exact extent of the failure: among indices of rank `n`, being asymmetric, being
transitive, and agreeing with `<=` (less or equal exactly when less or equal) each hold exactly for
rank zero and one. -/
theorem C42_order_iff (n : Nat) :
    ((∀ a b : List Int, a.length = n → b.length = n → idxLt a b = true → idxLt b a = false) ↔ n ≤ 1) ∧
    ((∀ a b c : List Int, a.length = n → b.length = n → c.length = n →
      idxLt a b = true → idxLt b c = true → idxLt a c = true) ↔ n ≤ 1) ∧
    ((∀ a b : List Int, a.length = n → b.length = n →
      (idxLe a b = true ↔ idxLt a b = true ∨ idxEq a b = true)) ↔ n ≤ 1) := by
  have small : n ≤ 1 → ∀ a : List Int, a.length = n → a = [] ∧ n = 0 ∨ ∃ x, a = [x] ∧ n = 1 := by
    intro hn a ha
    match a, ha with
    | [], ha => exact Or.inl ⟨rfl, by simpa using ha.symm⟩
    | [x], ha => exact Or.inr ⟨x, rfl, by simpa using ha.symm⟩
    | _ :: _ :: _, ha => simp at ha; omega
  have pad : ∀ x y z w : Int, idxLt ([x, y] ++ List.replicate (n - 2) 0) ([z, w] ++ List.replicate (n - 2) 0)
      = idxLt [x, y] [z, w] := fun x y z w => (zeros_le [x, y] [z, w] (n - 2)).resolve_right (by simp)
  have len : 2 ≤ n → ∀ x y : Int, ([x, y] ++ List.replicate (n - 2) 0).length = n := by
    intro hn x y; simp; omega
  refine ⟨⟨fun h => ?_, fun hn a b ha hb => ?_⟩, ⟨fun h => ?_, fun hn a b c ha hb hc => ?_⟩,
    ⟨fun h => ?_, fun hn a b ha hb => ?_⟩⟩
  · by_contra hn
    have := h _ _ (len (by omega) 0 1) (len (by omega) 1 0) (by rw [pad]; decide)
    rw [pad] at this
    exact absurd this (by decide)
  · rcases small hn a ha with ⟨rfl, e⟩ | ⟨x, rfl, e⟩ <;> rcases small hn b hb with ⟨rfl, e'⟩ | ⟨y, rfl, e'⟩ <;>
      first | omega | skip
    · simp [idxLt]
    · exact (C42_rank_one_partial x y 0).2.2.2.1
  · by_contra hn
    have := h _ _ _ (len (by omega) 1 0) (len (by omega) 0 1) (len (by omega) 1 (-1)) (by rw [pad]; decide)
      (by rw [pad]; decide)
    rw [pad] at this
    exact absurd this (by decide)
  · rcases small hn a ha with ⟨rfl, e⟩ | ⟨x, rfl, e⟩ <;> rcases small hn b hb with ⟨rfl, e'⟩ | ⟨y, rfl, e'⟩ <;>
      rcases small hn c hc with ⟨rfl, e''⟩ | ⟨z, rfl, e''⟩ <;> first | omega | skip
    · simp [idxLt]
    · exact (C42_rank_one_partial x y z).2.2.2.2
  · by_contra hn
    have := (h _ _ (len (by omega) 0 1) (len (by omega) 1 0)).2 (Or.inl (by rw [pad]; decide))
    rw [idxLe, pad] at this
    exact absurd this (by decide)
  · rcases small hn a ha with ⟨rfl, e⟩ | ⟨x, rfl, e⟩ <;> rcases small hn b hb with ⟨rfl, e'⟩ | ⟨y, rfl, e'⟩ <;>
      first | omega | skip
    · simp [idxLe, idxLt, idxEq]
    · exact (C42_rank_one_partial x y 0).2.1

end Verif.ArrayView
