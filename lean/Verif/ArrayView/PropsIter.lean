import Verif.ArrayView.PropsExact
import Verif.ArrayView.Iterators
import Mathlib.Data.List.Sort

/-!
# C96: iterating over a view

The elements of a view in row-major order are what `get` gives at the contained indices in lexicographic order;
`RowMajor ext L` says that `L` lists these indices.
-/

namespace Verif.ArrayView

/-- the indices inside the extents, each once, in lexicographic order -/
def RowMajor (ext : List Int) (L : List Idx) : Prop :=
  (∀ idx, idx ∈ L ↔ Contained idx ext) ∧ L.Pairwise (· < ·)

/-- there is only one such list -/
theorem RowMajor.unique {ext : List Int} {L M : List Idx} (hL : RowMajor ext L) (hM : RowMajor ext M) : L = M := by
  have hp : L.Perm M := by
    rw [List.perm_ext_iff_of_nodup (hL.2.imp fun h => ne_of_lt h) (hM.2.imp fun h => ne_of_lt h)]
    intro x; rw [hL.1, hM.1]
  exact hp.eq_of_pairwise' (hL.2.imp le_of_lt) (hM.2.imp le_of_lt)

/-- the index after `k` steps -/
def nth (ext : List Int) (k : Nat) : Idx := incN ext k (beginIdx ext)

theorem incN_succ (ext x : List Int) (n : Nat) : incN ext (n + 1) x = inc ext (incN ext n x) := by
  induction n generalizing x with
  | zero => rfl
  | succ n ih => rw [incN, ih, incN]

section
variable {ext : List Int} (hr : ext ≠ []) (hp : ∀ n ∈ ext, 0 < n)
include hp

theorem nth_contained {k : Nat} (hk : (k : Int) < ext.prod) : Contained (nth ext k) ext ∧ rankOf (nth ext k) ext = k := by
  have hz := contained_zero hp
  have h := (incN_rank k hz).1 (by rw [rank_zero]; omega)
  rw [rank_zero] at h
  exact ⟨h.1, by rw [nth, beginIdx, h.2]; omega⟩

theorem nth_end : nth ext ext.prod.toNat = ext := by
  have hz := contained_zero hp
  have := prod_pos' hp
  exact (incN_rank ext.prod.toNat hz).2 (by rw [rank_zero]; omega)

/-- the indices visited -/
def visits (ext : List Int) : List Idx := (List.range ext.prod.toNat).map (nth ext)

theorem rowMajor_visits : RowMajor ext (visits ext) := by
  have hpos := prod_pos' hp
  constructor
  · intro idx
    simp only [visits, List.mem_map, List.mem_range]
    constructor
    · rintro ⟨k, hk, rfl⟩; exact (nth_contained hp (by omega)).1
    · intro h
      have hb := rank_bounds h
      obtain ⟨h1, h2⟩ := nth_contained hp (k := (rankOf idx ext).toNat) (by omega)
      exact ⟨_, by omega, rank_inj h1 h (by omega)⟩
  · rw [visits, List.pairwise_map]
    refine List.pairwise_lt_range.imp_of_mem fun ha hb h => ?_
    rw [List.mem_range] at ha hb
    have a1 := nth_contained hp (lt_of_lt_of_le (Int.ofNat_lt.mpr ha) (by omega : (ext.prod.toNat : Int) ≤ ext.prod))
    have b1 := nth_contained hp (lt_of_lt_of_le (Int.ofNat_lt.mpr hb) (by omega : (ext.prod.toNat : Int) ≤ ext.prod))
    exact lt_of_rank_lt a1.1 b1.1 (by omega)

include hr

theorem nth_ne_end {k : Nat} (hk : (k : Int) < ext.prod) : nth ext k ≠ ext := by
  intro h
  have h1 := (nth_contained hp hk).1
  have h2 := idxGe_contained h1 hr
  rw [h, idxGe_self] at h2
  cases h2

theorem nth_ne_begin {k : Nat} (h0 : 0 < k) (hk : (k : Int) ≤ ext.prod) : nth ext k ≠ beginIdx ext := by
  rcases lt_or_eq_of_le hk with h | h
  · intro e
    have h1 := (nth_contained hp h).2
    rw [e, beginIdx, rank_zero] at h1
    omega
  · have h1 : k = ext.prod.toNat := by omega
    have hpos := prod_pos' hp
    have h2 := nth_ne_end hr hp (k := 0) (by omega)
    rw [h1, nth_end hp]
    exact fun e => h2 e.symm

theorem dec_nth {k : Nat} (hk : (k : Int) < ext.prod) : dec ext (nth ext (k + 1)) = .ok (nth ext k) := by
  rw [nth, incN_succ]
  exact C40_dec_inc ext _ hr (nth_contained hp hk).1

end

theorem exists_vals {g : Idx → Outcome T} {L : List Idx} (h : ∀ x ∈ L, ∃ a, g x = .ok a) :
    ∃ vals : List T, L.map g = vals.map .ok := by
  induction L with
  | nil => exact ⟨[], rfl⟩
  | cons x L ih =>
    obtain ⟨a, ha⟩ := h x (by simp)
    obtain ⟨vs, hv⟩ := ih fun y hy => h y (by simp [hy])
    exact ⟨a :: vs, by simp [ha, hv]⟩

/-! ## strided views -/

section
variable {s : Store} {c : Nat} {v : View} (hs : s c = some v) (mem : List T) (hr : v.bnd.ext ≠ [])
  (hp : ∀ n ∈ v.bnd.ext, 0 < n) {vals : List T} (hv : (visits v.bnd.ext).map (v.get mem) = vals.map .ok)

omit hs hr hp in
include hv in
theorem vals_at : vals.length = v.bnd.ext.prod.toNat ∧
    ∀ k (h : k < vals.length), v.get mem (nth v.bnd.ext k) = .ok vals[k] := by
  have hl : vals.length = v.bnd.ext.prod.toNat := by
    have := congrArg List.length hv
    simpa [visits] using this.symm
  refine ⟨hl, fun k h => ?_⟩
  have h1 : ((visits v.bnd.ext).map (v.get mem))[k]? = (vals.map Outcome.ok)[k]? := by rw [hv]
  rw [List.getElem?_map, List.getElem?_map, visits, List.getElem?_map, List.getElem?_range (by omega),
    List.getElem?_eq_getElem h] at h1
  simpa using h1

include hs hr hp hv

theorem sForward_spec (m : Nat) : ∀ k, k + m = v.bnd.ext.prod.toNat → ∀ fuel, m < fuel →
    sForward s mem ⟨c, v.bnd.ext, nth v.bnd.ext k⟩ ⟨c, v.bnd.ext, endIdx v.bnd.ext⟩ fuel = .ok (vals.drop k) := by
  obtain ⟨hl, hg⟩ := vals_at mem hv
  induction m with
  | zero =>
    intro k hk fuel hf
    obtain ⟨fuel, rfl⟩ : ∃ f, fuel = f + 1 := ⟨fuel - 1, by omega⟩
    have : k = v.bnd.ext.prod.toNat := by omega
    rw [sForward, this, nth_end hp]
    simp [SIt.eq, idxEq, endIdx, hl]
  | succ m ih =>
    intro k hk fuel hf
    obtain ⟨fuel, rfl⟩ : ∃ f, fuel = f + 1 := ⟨fuel - 1, by omega⟩
    have hlt : k < vals.length := by omega
    have h1 : (⟨c, v.bnd.ext, nth v.bnd.ext k⟩ : SIt).inc = ⟨c, v.bnd.ext, nth v.bnd.ext (k + 1)⟩ := by
      simp [SIt.inc, nth, incN_succ]
    have hne : idxEq (nth v.bnd.ext k) (endIdx v.bnd.ext) = false := by
      simpa [idxEq, endIdx] using nth_ne_end hr hp (by omega : (k : Int) < v.bnd.ext.prod)
    rw [sForward, h1, ih (k + 1) (by omega) fuel (by omega), List.drop_eq_getElem_cons hlt]
    simp [SIt.eq, hne, SIt.get, hs, hg k hlt]

theorem sBackward_spec (k : Nat) : k ≤ v.bnd.ext.prod.toNat → ∀ fuel, k < fuel →
    sBackward s mem ⟨c, v.bnd.ext, nth v.bnd.ext k⟩ ⟨c, v.bnd.ext, beginIdx v.bnd.ext⟩ fuel =
      .ok (vals.take k).reverse := by
  obtain ⟨hl, hg⟩ := vals_at mem hv
  induction k with
  | zero =>
    intro _ fuel hf
    obtain ⟨fuel, rfl⟩ : ∃ f, fuel = f + 1 := ⟨fuel - 1, by omega⟩
    rw [sBackward]
    simp [SIt.eq, idxEq, nth, incN]
  | succ k ih =>
    intro hk fuel hf
    obtain ⟨fuel, rfl⟩ : ∃ f, fuel = f + 1 := ⟨fuel - 1, by omega⟩
    have hlt : k < vals.length := by omega
    have hne : idxEq (nth v.bnd.ext (k + 1)) (beginIdx v.bnd.ext) = false := by
      simpa [idxEq] using nth_ne_begin hr hp (k := k + 1) (by omega) (by omega)
    have hrev : (vals.take (k + 1)).reverse = vals[k] :: (vals.take k).reverse := by
      rw [List.take_succ_eq_append_getElem (by omega), List.reverse_append]; rfl
    rw [sBackward, hrev]
    simp only [SIt.eq, hne, SIt.dec, dec_nth hr hp (by omega : (k : Int) < v.bnd.ext.prod)]
    simp [SIt.get, hs, hg k hlt, ih (by omega) fuel (by omega)]

end

/-- **C96** A strided view with positive extents, of any rank and strides, is iterated in row-major order: from `begin` to
`end` forwards, from `rbegin` to `rend` backwards -/
theorem C96_strided_partial (s : Store) (c : Nat) (v : View) (hs : s c = some v) (mem : List T) (hr : v.bnd.ext ≠ [])
    (hp : ∀ n ∈ v.bnd.ext, 0 < n) (hb : InBuffer mem.length v) (fuel : Nat) (hf : v.bnd.ext.prod < fuel) :
    ∃ first last L vals, sBegin s c = .ok first ∧ sEnd s c = .ok last ∧ RowMajor v.bnd.ext L ∧
      L.map (v.get mem) = vals.map .ok ∧ sForward s mem first last fuel = .ok vals ∧
      sBackward s mem last first fuel = .ok vals.reverse := by
  have hpos := prod_pos' hp
  have hR := rowMajor_visits hp
  obtain ⟨vals, hv⟩ := exists_vals (g := v.get mem) (L := visits v.bnd.ext)
    fun x hx => get_ok mem v hb x ((hR.1 x).mp hx)
  have hl := (vals_at mem hv).1
  refine ⟨⟨c, v.bnd.ext, beginIdx v.bnd.ext⟩, ⟨c, v.bnd.ext, endIdx v.bnd.ext⟩, visits v.bnd.ext, vals,
    by simp [sBegin, hs], by simp [sEnd, hs], hR, hv, ?_, ?_⟩
  · exact sForward_spec hs mem hr hp hv v.bnd.ext.prod.toNat 0 (by omega) fuel (by omega)
  · have := sBackward_spec hs mem hr hp hv v.bnd.ext.prod.toNat le_rfl fuel (by omega)
    rw [nth_end hp, ← hl, List.take_length] at this
    exact this

/-- the odd columns of a matrix of three rows -/
example : let v : View := ⟨some 1, ⟨[3, 2], [4, 2]⟩⟩
    sForward (fun _ => some v) [0, 1, 2, 3, 4, 5, 6, 7, 8, 9, 10, 11] ⟨0, [3, 2], [0, 0]⟩ ⟨0, [3, 2], [3, 2]⟩ 9 =
      .ok [1, 3, 5, 7, 9, 11] ∧
    sBackward (fun _ => some v) [0, 1, 2, 3, 4, 5, 6, 7, 8, 9, 10, 11] ⟨0, [3, 2], [3, 2]⟩ ⟨0, [3, 2], [0, 0]⟩ 9 =
      .ok [11, 9, 7, 5, 3, 1] := by decide

/-- **C96** A strided view of no elements, some but not all extents zero, is not iterated zero times: elements that are not
there are read -/
theorem C96_strided_fails : ∃ (v : View) (s : Store), s 0 = some v ∧ RowMajor v.bnd.ext [] ∧
    InBuffer ([] : List Nat).length v ∧
    (do let a ← sBegin s 0
        let b ← sEnd s 0
        sForward s ([] : List Nat) a b 9) = .ub := by
  refine ⟨⟨some 0, ⟨[0, 3], [3, 1]⟩⟩, fun _ => some ⟨some 0, ⟨[0, 3], [3, 1]⟩⟩, rfl, ?_, ?_, by decide⟩
  · refine ⟨fun idx => ?_, List.Pairwise.nil⟩
    simp only [List.not_mem_nil, false_iff]
    intro h
    exact absurd (h.pos 0 (by simp)) (by omega)
  · intro idx h
    exact absurd (Contained.pos h 0 (by simp)) (by omega)

/-! ## contiguous views -/

theorem load_eq (mem : List T) (p : Int) (h0 : 0 ≤ p) (x : T) : load mem p = .ok x ↔ mem[p.toNat]? = some x := by
  rw [load, if_pos h0]
  cases mem[p.toNat]? <;> simp

theorem cForward_spec (mem : List T) (c : Nat) (vals : List T) : ∀ p : Int,
    (∀ k (h : k < vals.length), load mem (p + k) = .ok vals[k]) → ∀ fuel, vals.length < fuel →
    cForward mem ⟨c, some p⟩ ⟨c, some (p + vals.length)⟩ fuel = .ok vals := by
  induction vals with
  | nil =>
    intro p _ fuel hf
    obtain ⟨fuel, rfl⟩ : ∃ f, fuel = f + 1 := ⟨fuel - 1, by simp at hf; omega⟩
    rw [cForward]
    simp [CIt.eq]
  | cons x vals ih =>
    intro p h fuel hf
    obtain ⟨fuel, rfl⟩ : ∃ f, fuel = f + 1 := ⟨fuel - 1, by simp at hf; omega⟩
    have h0 := h 0 (by simp)
    simp only [Nat.cast_zero, add_zero, List.getElem_cons_zero] at h0
    have h1 := ih (p + 1) (fun k hk => by
      have := h (k + 1) (by simpa using hk)
      simpa [add_assoc, add_comm (1 : Int)] using this) fuel (by simpa using hf)
    rw [cForward]
    have hne : (some p == some (p + ((x :: vals).length : Int))) = false := by
      simp only [List.length_cons, Nat.cast_add, Nat.cast_one, Option.some_beq_some, beq_eq_false_iff_ne]
      omega
    have he : p + ((x :: vals).length : Int) = p + 1 + vals.length := by simp; omega
    simp only [CIt.eq, hne]
    rw [he]
    simp [CIt.get, h0, CIt.add, h1]

theorem cBackward_spec (mem : List T) (c : Nat) (p : Int) (vals : List T)
    (h : ∀ k (h : k < vals.length), load mem (p + k) = .ok vals[k]) (k : Nat) : k ≤ vals.length → ∀ fuel, k < fuel →
    cBackward mem ⟨c, some (p + k)⟩ ⟨c, some p⟩ fuel = .ok (vals.take k).reverse := by
  induction k with
  | zero =>
    intro _ fuel hf
    obtain ⟨fuel, rfl⟩ : ∃ f, fuel = f + 1 := ⟨fuel - 1, by omega⟩
    rw [cBackward]
    simp [CIt.eq]
  | succ k ih =>
    intro hk fuel hf
    obtain ⟨fuel, rfl⟩ : ∃ f, fuel = f + 1 := ⟨fuel - 1, by omega⟩
    have hne : (some (p + ((k + 1 : Nat) : Int)) == some p) = false := by
      simp only [Option.some_beq_some, beq_eq_false_iff_ne]; omega
    have he : p + ((k + 1 : Nat) : Int) + -1 = p + k := by push_cast; omega
    have hrev : (vals.take (k + 1)).reverse = vals[k] :: (vals.take k).reverse := by
      rw [List.take_succ_eq_append_getElem (by omega), List.reverse_append]; rfl
    rw [cBackward, hrev]
    simp only [CIt.eq, hne, CIt.add, Option.map_some, he]
    simp [CIt.get, h k (by omega), ih (by omega) fuel (by omega)]

theorem get_contiguous (mem : List T) (p : Int) (ext : List Int) (idx : List Int) :
    View.get mem ⟨some p, ⟨ext, suffixProducts ext⟩⟩ idx = load mem (p + rankOf idx ext) := by
  simp [View.get, View.addr, linearize_eq, linLoop_rank]

theorem prod_zero_of_mem {l : List Int} (h : (0 : Int) ∈ l) : l.prod = 0 := by
  induction l with
  | nil => simp at h
  | cons a l ih =>
    rcases List.mem_cons.mp h with e | h
    · rw [List.prod_cons, ← e, zero_mul]
    · rw [List.prod_cons, ih h, mul_zero]

/-- the elements of a contiguous view, in order -/
theorem contiguous_vals (mem : List T) (p : Int) (ext : List Int) (hn : ∀ n ∈ ext, 0 ≤ n)
    (hb : 0 ≤ p ∧ p + ext.prod ≤ mem.length) : ∃ (L : List Idx) (vals : List T), RowMajor ext L ∧ (vals.length : Int) = ext.prod ∧
      L.map (View.get mem ⟨some p, ⟨ext, suffixProducts ext⟩⟩) = vals.map .ok ∧
      ∀ k (h : k < vals.length), load mem (p + k) = .ok vals[k] := by
  by_cases hz : ∃ n ∈ ext, n = 0
  · obtain ⟨n, hm, rfl⟩ := hz
    refine ⟨[], [], ⟨fun idx => ?_, List.Pairwise.nil⟩, ?_, rfl, by simp⟩
    · simp only [List.not_mem_nil, false_iff]
      exact fun h => absurd (h.pos 0 hm) (by omega)
    · rw [prod_zero_of_mem hm]; rfl
  · have hp : ∀ n ∈ ext, 0 < n := fun n hm => lt_of_le_of_ne (hn n hm) fun e => hz ⟨n, hm, e.symm⟩
    have hpos := prod_pos' hp
    have hR := rowMajor_visits hp
    have hib : InBuffer mem.length ⟨some p, ⟨ext, suffixProducts ext⟩⟩ := by
      intro idx hidx
      have := rank_bounds (ns := ext) hidx
      exact ⟨p + rankOf idx ext, by simp [View.addr, linearize_eq, linLoop_rank], by omega, by omega⟩
    obtain ⟨vals, hv⟩ := exists_vals (g := View.get mem ⟨some p, ⟨ext, suffixProducts ext⟩⟩) (L := visits ext)
      fun x hx => get_ok mem _ hib x ((hR.1 x).mp hx)
    obtain ⟨hl, hg⟩ := vals_at (v := ⟨some p, ⟨ext, suffixProducts ext⟩⟩) mem hv
    simp only at hl
    refine ⟨visits ext, vals, hR, by omega, hv, fun k h => ?_⟩
    have h1 := hg k h
    rw [get_contiguous, (nth_contained hp (by omega)).2] at h1
    exact h1

/-- **C96** A contiguous view, also one of no elements, is iterated in row-major order, forwards and backwards; `begin[k]`
is the element `k` places on, and iterators differ by the number of elements between them -/
theorem C96_contiguous (s : Store) (c : Nat) (ext : List Int) (b : Bounds) (hb : ofExtents ext = .ok b) (p : Int)
    (hs : s c = some ⟨some p, b⟩) (mem : List T) (hn : ∀ n ∈ ext, 0 ≤ n) (hm : 0 ≤ p ∧ p + ext.prod ≤ mem.length)
    (fuel : Nat) (hf : ext.prod < fuel) :
    ∃ first last L vals, cBegin s c = .ok first ∧ cEnd s c = .ok last ∧ RowMajor ext L ∧
      L.map (View.get mem ⟨some p, b⟩) = vals.map .ok ∧ cForward mem first last fuel = .ok vals ∧
      cBackward mem last first fuel = .ok vals.reverse ∧ last.diff first = .ok (vals.length : Int) ∧
      (∀ k (h : k < vals.length), first.at' mem k = .ok vals[k]) ∧
      ∀ i j : Int, (first.add i).diff (first.add j) = .ok (i - j) ∧ (first.add i).lt (first.add j) = .ok (decide (i < j)) := by
  rw [ofExtents_ok] at hb
  obtain rfl := Outcome.ok.inj hb
  obtain ⟨L, vals, hR, hl, hL, hv⟩ := contiguous_vals mem p ext hn hm
  have h2 := cForward_spec mem c vals p hv fuel (by omega)
  have h3 := cBackward_spec mem c p vals hv vals.length le_rfl fuel (by omega)
  rw [List.take_length] at h3
  refine ⟨⟨c, some p⟩, ⟨c, some (p + vals.length)⟩, L, vals, by simp [cBegin, hs], by simp [cEnd, hs, size_eq, hl],
    hR, hL, h2, h3, by simp [CIt.diff], ?_, ?_⟩
  · intro k h
    simp [CIt.at', CIt.add, CIt.get, hv k h]
  · intro i j
    simp [CIt.diff, CIt.add, CIt.lt]

example : cForward [9, 1, 2, 3, 4, 5, 6] ⟨0, some 1⟩ ⟨0, some 7⟩ 9 = .ok [1, 2, 3, 4, 5, 6] ∧
    cBackward [9, 1, 2, 3, 4, 5, 6] ⟨0, some 7⟩ ⟨0, some 1⟩ 9 = .ok [6, 5, 4, 3, 2, 1] ∧
    ofExtents [2, 3] = .ok ⟨[2, 3], [3, 1]⟩ := by decide

/-! ## const iteration over static views -/

/-- **C96** From `cbegin` to `cend` of a static view there are exactly as many elements as the view has dimensions, so all
elements of the view are visited, and no others, exactly if that happens to be their number -/
theorem C96_static_const_iff (s : Store) (c : Nat) (ext : List Int) (b : Bounds) (hb : ofExtents ext = .ok b) (p : Int)
    (hs : s c = some ⟨some p, b⟩) (mem : List T) (hn : ∀ n ∈ ext, 0 ≤ n)
    (hm : 0 ≤ p ∧ p + ext.prod ≤ mem.length ∧ p + ext.length ≤ mem.length)
    (fuel : Nat) (hf : ext.prod < fuel ∧ ext.length < fuel) :
    ∃ first last clast vals cvals, cBegin s c = .ok first ∧ cEnd s c = .ok last ∧ staticCEnd s c = .ok clast ∧
      cForward mem first last fuel = .ok vals ∧ cForward mem first clast fuel = .ok cvals ∧
      cvals.length = ext.length ∧ (cvals = vals ↔ ext.prod = ext.length) := by
  rw [ofExtents_ok] at hb
  obtain rfl := Outcome.ok.inj hb
  obtain ⟨L, vals, hR, hl, hL, hv⟩ := contiguous_vals mem p ext hn ⟨hm.1, hm.2.1⟩
  have h2 := cForward_spec mem c vals p hv fuel (by omega)
  obtain ⟨L', cvals, -, hl', -, hv'⟩ := contiguous_vals mem p [(ext.length : Int)] (by simp)
    ⟨hm.1, by simpa using hm.2.2⟩
  have h3 := cForward_spec mem c cvals p hv' fuel (by simp at hl'; omega)
  simp only [List.prod_cons, List.prod_nil, mul_one] at hl'
  refine ⟨⟨c, some p⟩, ⟨c, some (p + vals.length)⟩, ⟨c, some (p + cvals.length)⟩, vals, cvals, by simp [cBegin, hs],
    by simp [cEnd, hs, size_eq, hl], by simp [staticCEnd, hs, hl'], h2, h3, by omega, ?_⟩
  constructor
  · rintro rfl; omega
  · intro h
    apply List.ext_getElem (by omega)
    intro k h1 h4
    have := (hv' k h1).symm.trans (hv k h4)
    exact Outcome.ok.inj this

example : staticCEnd (fun _ => some ⟨some 0, ⟨[2, 3], [3, 1]⟩⟩) 0 = .ok ⟨0, some 2⟩ ∧
    cForward [1, 2, 3, 4, 5, 6] ⟨0, some 0⟩ ⟨0, some 2⟩ 9 = .ok [1, 2] ∧
    staticCEnd (fun _ => some ⟨some 0, ⟨[2, 1], [1, 1]⟩⟩) 0 = .ok ⟨0, some 2⟩ := by decide

/-- **C96** So a const loop over a static view of two by three elements visits two of them, and one over a static view of
one by one by one elements reads past it -/
theorem C96_static_const_fails :
    (∃ s : Store, s 0 = some ⟨some 0, ⟨[2, 3], [3, 1]⟩⟩ ∧
      (do let a ← cBegin s 0
          let b ← cEnd s 0
          cForward [1, 2, 3, 4, 5, 6] a b 9) = .ok [1, 2, 3, 4, 5, 6] ∧
      (do let a ← cBegin s 0
          let b ← staticCEnd s 0
          cForward [1, 2, 3, 4, 5, 6] a b 9) = .ok [1, 2]) ∧
    ∃ s : Store, s 0 = some ⟨some 0, ⟨[1, 1, 1], [1, 1, 1]⟩⟩ ∧
      (do let a ← cBegin s 0
          let b ← cEnd s 0
          cForward [1] a b 9) = .ok [1] ∧
      (do let a ← cBegin s 0
          let b ← staticCEnd s 0
          cForward [1] a b 9) = .ub :=
  ⟨⟨fun _ => some ⟨some 0, ⟨[2, 3], [3, 1]⟩⟩, rfl, by decide, by decide⟩,
    ⟨fun _ => some ⟨some 0, ⟨[1, 1, 1], [1, 1, 1]⟩⟩, rfl, by decide, by decide⟩⟩

/-! ## writing through iterators -/

theorem prod_nonneg' {ext : List Int} (h : ∀ n ∈ ext, 0 ≤ n) : 0 ≤ ext.prod := by
  induction ext with
  | nil => simp
  | cons a t ih =>
    rw [List.prod_cons]
    exact Int.mul_nonneg (h a (by simp)) (ih fun n hn => h n (by simp [hn]))

theorem store_ok (mem : List T) (p : Int) (x : T) (h : 0 ≤ p ∧ p < mem.length) :
    store mem p x = .ok (mem.set p.toNat x) := by rw [store, if_pos h]

theorem load_set (mem : List T) (p q : Int) (x : T) (hp : 0 ≤ p ∧ p < mem.length) :
    load (mem.set p.toNat x) q = if q = p then .ok x else load mem q := by
  by_cases h : q = p
  · rw [if_pos h, h, load_eq _ _ hp.1]
    rw [List.getElem?_set_self (by omega)]
  · rw [if_neg h, load, load]
    by_cases h0 : 0 ≤ q
    · rw [if_pos h0, if_pos h0, List.getElem?_set_ne (by omega)]
    · rw [if_neg h0, if_neg h0]

theorem sAssign_spec {s : Store} {c : Nat} {v : View} (hs : s c = some v) (hr : v.bnd.ext ≠ [])
    (hp : ∀ n ∈ v.bnd.ext, 0 < n) {n : Nat} (hb : InBuffer n v)
    (hinj : ∀ x y, Contained x v.bnd.ext → Contained y v.bnd.ext → v.addr x = v.addr y → x = y) (f : Nat → T) (m : Nat) :
    ∀ k (mem : List T), mem.length = n → k + m = v.bnd.ext.prod.toNat → ∀ fuel, m < fuel →
    ∃ mem', sAssign s mem f k ⟨c, v.bnd.ext, nth v.bnd.ext k⟩ ⟨c, v.bnd.ext, endIdx v.bnd.ext⟩ fuel = .ok mem' ∧
      mem'.length = n ∧
      (∀ j, k ≤ j → (j : Int) < v.bnd.ext.prod → v.get mem' (nth v.bnd.ext j) = .ok (f j)) ∧
      ∀ q : Int, (∀ j, k ≤ j → (j : Int) < v.bnd.ext.prod → v.addr (nth v.bnd.ext j) ≠ some q) → load mem' q = load mem q := by
  induction m with
  | zero =>
    intro k mem hl hk fuel hf
    obtain ⟨fuel, rfl⟩ : ∃ f, fuel = f + 1 := ⟨fuel - 1, by omega⟩
    have : k = v.bnd.ext.prod.toNat := by omega
    refine ⟨mem, ?_, hl, fun j h1 h2 => by omega, fun _ _ => rfl⟩
    rw [sAssign, this, nth_end hp]
    simp [SIt.eq, idxEq, endIdx]
  | succ m ih =>
    intro k mem hl hk fuel hf
    obtain ⟨fuel, rfl⟩ : ∃ f, fuel = f + 1 := ⟨fuel - 1, by omega⟩
    have hklt : (k : Int) < v.bnd.ext.prod := by omega
    have hc := (nth_contained hp hklt).1
    obtain ⟨p, ha, h0, h1⟩ := hb _ hc
    have hin : 0 ≤ p ∧ p < mem.length := by omega
    obtain ⟨mem', e1, e2, e3, e4⟩ := ih (k + 1) (mem.set p.toNat (f k)) (by simpa using hl) (by omega) fuel (by omega)
    have hinc : (⟨c, v.bnd.ext, nth v.bnd.ext k⟩ : SIt).inc = ⟨c, v.bnd.ext, nth v.bnd.ext (k + 1)⟩ := by
      simp [SIt.inc, nth, incN_succ]
    have hne : idxEq (nth v.bnd.ext k) (endIdx v.bnd.ext) = false := by
      simpa [idxEq, endIdx] using nth_ne_end hr hp hklt
    refine ⟨mem', ?_, e2, ?_, ?_⟩
    · rw [sAssign, hinc]
      simp only [SIt.eq, hne, SIt.set, hs, ha, store_ok mem p (f k) hin]
      simp [e1]
    · intro j hj hjn
      rcases Nat.eq_or_lt_of_le hj with rfl | hlt
      · rw [View.get, ha]
        show load mem' p = _
        rw [e4 p fun j h1 h2 hadd => ?_, load_set mem p p _ hin, if_pos rfl]
        have hcj := nth_contained hp h2
        have := hinj _ _ hcj.1 hc (hadd.trans ha.symm)
        have h3 := hcj.2
        rw [this, (nth_contained hp hklt).2] at h3
        omega
      · exact e3 j hlt hjn
    · intro q hq
      rw [e4 q fun j h1 h2 => hq j (by omega) h2, load_set mem p q _ hin, if_neg (fun e : q = p => hq k le_rfl hklt (by rw [e]; exact ha))]

/-- **C96** Writing through the iterators of a strided view, no two of whose elements share a place, puts the `k`-th value
at the `k`-th index in row-major order and changes nothing outside the view -/
theorem C96_write_strided (s : Store) (c : Nat) (v : View) (hs : s c = some v) (mem : List T) (hr : v.bnd.ext ≠ [])
    (hp : ∀ n ∈ v.bnd.ext, 0 < n) (hb : InBuffer mem.length v)
    (hinj : ∀ x y, Contained x v.bnd.ext → Contained y v.bnd.ext → v.addr x = v.addr y → x = y) (f : Nat → T)
    (fuel : Nat) (hf : v.bnd.ext.prod < fuel) :
    ∃ first last mem', sBegin s c = .ok first ∧ sEnd s c = .ok last ∧ sAssign s mem f 0 first last fuel = .ok mem' ∧
      mem'.length = mem.length ∧
      (∀ L, RowMajor v.bnd.ext L → ∀ k (h : k < L.length), v.get mem' L[k] = .ok (f k)) ∧
      ∀ q, (∀ idx, Contained idx v.bnd.ext → v.addr idx ≠ some q) → load mem' q = load mem q := by
  have hpos := prod_pos' hp
  obtain ⟨mem', e1, e2, e3, e4⟩ := sAssign_spec hs hr hp hb hinj f v.bnd.ext.prod.toNat 0 mem rfl (by omega) fuel (by omega)
  refine ⟨⟨c, v.bnd.ext, beginIdx v.bnd.ext⟩, ⟨c, v.bnd.ext, endIdx v.bnd.ext⟩, mem', by simp [sBegin, hs],
    by simp [sEnd, hs], e1, e2, ?_, ?_⟩
  · intro L hL k h
    obtain rfl := hL.unique (rowMajor_visits hp)
    simp only [visits, List.length_map, List.length_range] at h
    simp only [visits, List.getElem_map, List.getElem_range]
    exact e3 k (by omega) (by omega)
  · intro q hq
    exact e4 q fun j _ hj => hq _ (nth_contained hp hj).1

/-- the second column of a matrix -/
example : let v : View := ⟨some 1, ⟨[2], [3]⟩⟩
    sAssign (fun _ => some v) [0, 0, 0, 0, 0, 0] (fun k => 7 + k) 0 ⟨0, [2], [0]⟩ ⟨0, [2], [2]⟩ 9 = .ok [0, 7, 0, 0, 8, 0] := by
  decide

theorem cAssign_spec (f : Nat → T) (c : Nat) (m : Nat) : ∀ (k : Nat) (p : Int) (mem : List T), 0 ≤ p → p + m ≤ mem.length →
    ∀ fuel, m < fuel → ∃ mem', cAssign mem f k ⟨c, some p⟩ ⟨c, some (p + m)⟩ fuel = .ok mem' ∧ mem'.length = mem.length ∧
      (∀ j : Nat, j < m → load mem' (p + j) = .ok (f (k + j))) ∧
      ∀ q, (q < p ∨ p + m ≤ q) → load mem' q = load mem q := by
  induction m with
  | zero =>
    intro k p mem h0 h1 fuel hf
    obtain ⟨fuel, rfl⟩ : ∃ f, fuel = f + 1 := ⟨fuel - 1, by omega⟩
    exact ⟨mem, by rw [cAssign]; simp [CIt.eq], rfl, by omega, fun _ _ => rfl⟩
  | succ m ih =>
    intro k p mem h0 h1 fuel hf
    obtain ⟨fuel, rfl⟩ : ∃ f, fuel = f + 1 := ⟨fuel - 1, by omega⟩
    have hin : 0 ≤ p ∧ p < mem.length := by omega
    obtain ⟨mem', e1, e2, e3, e4⟩ := ih (k + 1) (p + 1) (mem.set p.toNat (f k)) (by omega)
      (by rw [List.length_set]; omega) fuel (by omega)
    have hne : (some p == some (p + ((m + 1 : Nat) : Int))) = false := by
      simp only [Option.some_beq_some, beq_eq_false_iff_ne]; omega
    have he : p + ((m + 1 : Nat) : Int) = p + 1 + m := by push_cast; omega
    refine ⟨mem', ?_, by rw [e2, List.length_set], ?_, ?_⟩
    · rw [cAssign]
      simp only [CIt.eq, hne, CIt.set, store_ok mem p (f k) hin]
      rw [he]
      simp [CIt.add, e1]
    · intro j hj
      cases j with
      | zero =>
        rw [Nat.cast_zero, add_zero, e4 p (by omega), load_set mem p p _ hin, if_pos rfl, Nat.add_zero]
      | succ j =>
        have := e3 j (by omega)
        rw [show p + 1 + (j : Int) = p + ((j + 1 : Nat) : Int) by push_cast; omega] at this
        rw [this, show k + 1 + j = k + (j + 1) by omega]
    · intro q hq
      rw [e4 q (by omega), load_set mem p q _ hin, if_neg (by omega)]

/-- **C96** The same for a contiguous view, also one of no elements -/
theorem C96_write_contiguous (s : Store) (c : Nat) (ext : List Int) (b : Bounds) (hb : ofExtents ext = .ok b) (p : Int)
    (hs : s c = some ⟨some p, b⟩) (mem : List T) (hn : ∀ n ∈ ext, 0 ≤ n) (hm : 0 ≤ p ∧ p + ext.prod ≤ mem.length)
    (f : Nat → T) (fuel : Nat) (hf : ext.prod < fuel) :
    ∃ first last mem', cBegin s c = .ok first ∧ cEnd s c = .ok last ∧ cAssign mem f 0 first last fuel = .ok mem' ∧
      mem'.length = mem.length ∧
      (∀ L, RowMajor ext L → ∀ k (h : k < L.length), View.get mem' ⟨some p, b⟩ L[k] = .ok (f k)) ∧
      ∀ q, (∀ idx, Contained idx ext → View.addr ⟨some p, b⟩ idx ≠ some q) → load mem' q = load mem q := by
  rw [ofExtents_ok] at hb
  obtain rfl := Outcome.ok.inj hb
  have hnn : 0 ≤ ext.prod := prod_nonneg' hn
  obtain ⟨mem', e1, e2, e3, e4⟩ := cAssign_spec f c ext.prod.toNat 0 p mem hm.1 (by omega) fuel (by omega)
  have he : p + (ext.prod.toNat : Int) = p + ext.prod := by omega
  rw [he] at e1
  refine ⟨⟨c, some p⟩, ⟨c, some (p + ext.prod)⟩, mem', by simp [cBegin, hs], by simp [cEnd, hs, size_eq], e1, e2, ?_, ?_⟩
  · intro L hL k h
    have hpos : ∀ n ∈ ext, 0 < n := ((hL.1 L[k]).mp (List.getElem_mem h)).pos
    obtain rfl := hL.unique (rowMajor_visits hpos)
    simp only [visits, List.length_map, List.length_range] at h
    simp only [visits, List.getElem_map, List.getElem_range, get_contiguous, (nth_contained hpos (by omega : (k : Int) < ext.prod)).2]
    rw [e3 k (by omega), Nat.zero_add]
  · intro q hq
    refine e4 q ?_
    by_contra hc
    push Not at hc
    have hpos : ∀ n ∈ ext, 0 < n := by
      intro n hmem
      refine lt_of_le_of_ne (hn n hmem) fun e => ?_
      have := prod_zero_of_mem (e ▸ hmem)
      omega
    obtain ⟨idx, hi, hrk⟩ := rank_surj ext hpos (q - p) (by omega) (by omega)
    exact hq idx hi (by simp [View.addr, linearize_eq, linLoop_rank, hrk])

example : cAssign [0, 0, 0, 0, 0] (fun k => 7 + k) 0 ⟨0, some 1⟩ ⟨0, some 4⟩ 9 = .ok [0, 7, 8, 9, 0] := by decide

/-! ## iterators and their view object -/

/-- **C96** Iterators of two copies of a view cannot be compared, though the copies show the same elements -/
theorem C96_copies_fails (v : View) (a b : Nat) (hab : a ≠ b) (s : Store) (ha : s a = some v) (hb : s b = some v)
    (mem : List T) (fuel : Nat) :
    (do let x ← sBegin s a
        let y ← sEnd s b
        sForward s mem x y (fuel + 1)) = .assertFail ∧
    (do let x ← cBegin s a
        let y ← cEnd s b
        cForward mem x y (fuel + 1)) = .assertFail := by
  have h : (a == b) = false := by simpa using hab
  simp [sBegin, sEnd, cBegin, cEnd, ha, hb, sForward, cForward, SIt.eq, CIt.eq, h]

/-- a view of a vector of three, and a copy of it -/
example : let s : Store := fun c => if c ≤ 1 then some ⟨some 0, ⟨[3], [1]⟩⟩ else none
    s 0 = s 1 ∧ (do let x ← sBegin s 0
                    let y ← sEnd s 0
                    sForward s [5, 6, 7] x y 9) = .ok [5, 6, 7] ∧
      (do let x ← sBegin s 0
          let y ← sEnd s 1
          sForward s [5, 6, 7] x y 9) = .assertFail := by decide

/-- **C96** An iterator of a strided view is of no use once the view object is gone, even if the elements are still there, and
shows other elements once another view is assigned to it -/
theorem C96_lifetime_fails : ∃ (s s' : Store) (v w : View) (it : SIt), s 0 = some v ∧ sBegin s 0 = .ok it ∧
    it.get s [1, 2] = .ok 1 ∧ (∀ u : Store, u 0 = none → it.get u [1, 2] = .ub) ∧ s' 0 = some w ∧
    it.get s' [1, 2] = .ok 2 ∧ v.data ≠ w.data := by
  refine ⟨fun _ => some ⟨some 0, ⟨[1], [1]⟩⟩, fun _ => some ⟨some 1, ⟨[1], [1]⟩⟩, ⟨some 0, ⟨[1], [1]⟩⟩, ⟨some 1, ⟨[1], [1]⟩⟩,
    ⟨0, [1], [0]⟩, rfl, rfl, rfl, ?_, rfl, rfl, by simp⟩
  intro u hu
  simp [SIt.get, hu]

/-- **C96** An iterator of a strided view steps and compares on its own, and reads whatever view its view object then is -/
theorem C96_lifetime_iff (s s' : Store) (c : Nat) (it : SIt) (h : sBegin s c = .ok it) (mem : List T) (x : T) :
    it.get s' mem = .ok x ↔ ∃ v, s' c = some v ∧ v.get mem (beginIdx it.bnd) = .ok x := by
  cases hs : s c with
  | none => simp [sBegin, hs] at h
  | some v =>
    simp only [sBegin, hs, Outcome.ok.injEq] at h
    subst h
    cases hs' : s' c with
    | none => simp [SIt.get, hs']
    | some w => simp [SIt.get, hs']

/-- **C96** Stepping back from the first element of a strided view ends the program; stepping back from the end gives the
last element -/
theorem C96_before_begin (s : Store) (c : Nat) (v : View) (hs : s c = some v) (hr : v.bnd.ext ≠ [])
    (hp : ∀ n ∈ v.bnd.ext, 0 < n) :
    ∃ first last back, sBegin s c = .ok first ∧ sEnd s c = .ok last ∧ first.dec = .throws "terminate" ∧
      last.dec = .ok back ∧ back.cur = v.bnd.ext.map (· - 1) := by
  have hz := contained_zero hp
  refine ⟨⟨c, v.bnd.ext, beginIdx v.bnd.ext⟩, ⟨c, v.bnd.ext, endIdx v.bnd.ext⟩, ⟨c, v.bnd.ext, v.bnd.ext.map (· - 1)⟩,
    by simp [sBegin, hs], by simp [sEnd, hs], ?_, ?_, rfl⟩
  · rcases decLoop_spec hz with ⟨y, -, h2, h3⟩ | ⟨h1, -⟩
    · have := (rank_bounds h2).1
      rw [rank_zero] at h3
      omega
    · simp [SIt.dec, dec, beginIdx, idxGe_contained hz hr, h1]
  · simp [SIt.dec, dec, endIdx, idxGe_self]

example : SIt.dec ⟨0, [2, 3], [0, 0]⟩ = .throws "terminate" ∧ SIt.dec ⟨0, [2, 3], [2, 3]⟩ = .ok ⟨0, [2, 3], [1, 2]⟩ := by decide

/-- **C96** exactly, for a strided view of no elements: iterating visits nothing if and only if all extents are zero -/
theorem C96_strided_empty_iff (s : Store) (c : Nat) (v : View) (hs : s c = some v) (mem : List T) (fuel : Nat) :
    (∃ first last, sBegin s c = .ok first ∧ sEnd s c = .ok last ∧ sForward s mem first last (fuel + 1) = .ok []) ↔
      ∀ n ∈ v.bnd.ext, n = 0 := by
  have hred : (∃ first last, sBegin s c = .ok first ∧ sEnd s c = .ok last ∧ sForward s mem first last (fuel + 1) = .ok []) ↔
      sForward s mem ⟨c, v.bnd.ext, beginIdx v.bnd.ext⟩ ⟨c, v.bnd.ext, endIdx v.bnd.ext⟩ (fuel + 1) = .ok [] := by
    simp only [sBegin, sEnd, hs, Outcome.ok.injEq]
    constructor
    · rintro ⟨_, _, rfl, rfl, h⟩; exact h
    · exact fun h => ⟨_, _, rfl, rfl, h⟩
  rw [hred]
  have hz : beginIdx v.bnd.ext = v.bnd.ext ↔ ∀ n ∈ v.bnd.ext, n = 0 := by
    rw [beginIdx, eq_comm, List.eq_replicate_iff]; simp
  rw [← hz, sForward]
  by_cases h : beginIdx v.bnd.ext = v.bnd.ext
  · simp [SIt.eq, idxEq, endIdx, h, Outcome.assert]
  · simp only [SIt.eq, idxEq, endIdx, beq_self_eq_true, Outcome.assert, if_true, Outcome.bind_ok, beq_iff_eq, h, if_false, iff_false]
    intro he
    cases hg : SIt.get s mem ⟨c, v.bnd.ext, beginIdx v.bnd.ext⟩ with
    | ok x =>
      rw [hg] at he
      cases hf : sForward s mem (SIt.inc ⟨c, v.bnd.ext, beginIdx v.bnd.ext⟩) ⟨c, v.bnd.ext, v.bnd.ext⟩ fuel with
      | ok r => rw [hf] at he; simp at he
      | _ => rw [hf] at he; simp at he
    | _ => rw [hg] at he; simp at he

example : sForward (fun _ => some ⟨some 0, ⟨[0, 0], [1, 1]⟩⟩) ([] : List Nat) ⟨0, [0, 0], [0, 0]⟩ ⟨0, [0, 0], [0, 0]⟩ 3 = .ok [] ∧
    sForward (fun _ => some ⟨some 0, ⟨[1, 0], [1, 1]⟩⟩) [7] ⟨0, [1, 0], [0, 0]⟩ ⟨0, [1, 0], [1, 0]⟩ 3 = .ok [7] := by decide

end Verif.ArrayView
