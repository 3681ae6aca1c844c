import Verif.ArrayView.Model
import Mathlib.Data.Int.Order.Basic
import Mathlib.Algebra.BigOperators.Group.List.Basic
import Mathlib.Tactic.Linarith
import Mathlib.Tactic.Ring
import Mathlib.Data.List.Forall2
import Mathlib.Data.List.Chain

/-!
# Multi-dimensional indices: numbering, successor, predecessor
-/

namespace Verif.ArrayView

/-- the index lies inside the extents, component by component -/
def Contained (idx ext : List Int) : Prop := List.Forall₂ (fun i n => 0 ≤ i ∧ i < n) idx ext

/-- the position of an index in row-major order -/
def rankOf : List Int → List Int → Int
  | i :: is, _ :: ns => i * ns.prod + rankOf is ns
  | _, _ => 0

/-- for each dimension the product of the extents after it -/
def suffixProducts : List Int → List Int
  | [] => []
  | _ :: ns => ns.prod :: suffixProducts ns

theorem contained_nil : Contained [] [] := List.Forall₂.nil

theorem contained_cons {i n : Int} {is ns : List Int} :
    Contained (i :: is) (n :: ns) ↔ (0 ≤ i ∧ i < n) ∧ Contained is ns := by
  simp [Contained]

theorem Contained.len {is ns : List Int} (h : Contained is ns) : is.length = ns.length := h.length_eq

theorem contained_iff_contains (is ns : List Int) (h : is.length = ns.length) :
    contains is ns = true ↔ Contained is ns := by
  induction ns generalizing is with
  | nil =>
    cases is with
    | nil => simp [contains, contained_nil]
    | cons i is => simp at h
  | cons n ns ih =>
    cases is with
    | nil => simp at h
    | cons i is =>
      rw [contained_cons, contains]
      have := ih is (by simpa using h)
      by_cases hi : i < 0 ∨ i ≥ n
      · simp [hi]; intro h0 h1; omega
      · simp only [not_or, not_lt, not_le, ge_iff_le] at hi
        simp [this, hi, Int.not_lt.mpr hi.1, Int.not_le.mpr hi.2]

/-! ## the model's loops -/

theorem stride_all (d : Int) (ds : List Int) : stride (d :: ds) ds.length = .ok ds.prod := by
  induction ds generalizing d with
  | nil => rfl
  | cons e es ih => simp [stride, ih]

theorem collect_ok (l : List Int) : collect (l.map .ok) = .ok l := by
  induction l with
  | nil => rfl
  | cons x xs ih => simp [collect, ih]

theorem stride_drop (dims : List Int) (I : Nat) (h : I < dims.length) :
    stride (dims.drop I) (dims.length - I - 1) = .ok ((dims.drop (I + 1)).prod) := by
  have h1 : dims.drop I = dims[I] :: dims.drop (I + 1) := by simp
  have h2 : dims.length - I - 1 = (dims.drop (I + 1)).length := by simp; omega
  rw [h1, h2, stride_all]

theorem suffixProducts_eq (dims : List Int) :
    suffixProducts dims = (List.range dims.length).map fun I => (dims.drop (I + 1)).prod := by
  induction dims with
  | nil => rfl
  | cons d ds ih =>
    rw [suffixProducts, List.length_cons, List.range_succ_eq_map, List.map_cons, List.map_map, ih]
    simp [Function.comp_def]

theorem makeStrides_ok (dims : List Int) : makeStrides dims = .ok (suffixProducts dims) := by
  rw [suffixProducts_eq, ← collect_ok, makeStrides, List.map_map]
  congr 1
  apply List.map_congr_left
  intro I hI
  exact stride_drop dims I (List.mem_range.mp hI)

theorem ofExtents_ok (ext : List Int) : ofExtents ext = .ok ⟨ext, suffixProducts ext⟩ := by
  simp [ofExtents, makeStrides_ok]

theorem sizeLoop_eq (r : Int) (ns : List Int) : sizeLoop r ns = r * ns.prod := by
  induction ns generalizing r with
  | nil => simp [sizeLoop]
  | cons n ns ih => rw [sizeLoop, ih, List.prod_cons, mul_assoc]

theorem size_eq (b : Bounds) : b.size = b.ext.prod := by simp [Bounds.size, sizeLoop_eq]

theorem linLoop_acc (o : Int) (is ss : List Int) : linLoop o is ss = o + linLoop 0 is ss := by
  induction is generalizing o ss with
  | nil => simp [linLoop]
  | cons i is ih =>
    cases ss with
    | nil => simp [linLoop]
    | cons s ss => rw [linLoop, linLoop, ih, ih (0 + i * s)]; ring

theorem linearize_eq (b : Bounds) (idx : List Int) : b.linearize idx = linLoop 0 idx b.str := by
  unfold Bounds.linearize
  cases idx with
  | nil => simp [linLoop]
  | cons i is =>
    cases hs : b.str with
    | nil => simp [linLoop]
    | cons s ss => simp [linLoop]

theorem linLoop_rank (is ns : List Int) : linLoop 0 is (suffixProducts ns) = rankOf is ns := by
  induction is generalizing ns with
  | nil => simp [linLoop, rankOf]
  | cons i is ih =>
    cases ns with
    | nil => simp [suffixProducts, linLoop, rankOf]
    | cons n ns => rw [suffixProducts, linLoop, linLoop_acc, rankOf, ih]; ring

/-! ## the row-major numbering -/

theorem Contained.pos {is ns : List Int} (h : Contained is ns) : ∀ n ∈ ns, 0 < n := by
  induction h with
  | nil => simp
  | cons h0 _ ih =>
    intro n hn
    rcases List.mem_cons.mp hn with rfl | hn
    · omega
    · exact ih n hn

theorem prod_pos' {ns : List Int} (h : ∀ n ∈ ns, 0 < n) : 0 < ns.prod := by
  induction ns with
  | nil => simp
  | cons n ns ih =>
    rw [List.prod_cons]
    exact mul_pos (h n (by simp)) (ih fun m hm => h m (by simp [hm]))

theorem rank_bounds {is ns : List Int} (h : Contained is ns) : 0 ≤ rankOf is ns ∧ rankOf is ns < ns.prod := by
  induction h with
  | nil => simp [rankOf]
  | @cons i n is ns h0 h1 ih =>
    have hp := prod_pos' (Contained.pos h1)
    rw [rankOf, List.prod_cons]
    constructor
    · nlinarith [mul_nonneg h0.1 hp.le]
    · nlinarith

theorem rank_lt_of_lt {a b ns : List Int} (ha : Contained a ns) (hb : Contained b ns) (h : a < b) :
    rankOf a ns < rankOf b ns := by
  induction ns generalizing a b with
  | nil =>
    cases ha; cases hb; exact absurd h (List.not_lt_nil _)
  | cons n ns ih =>
    cases ha with
    | @cons i _ is _ h0 h1 =>
    cases hb with
    | @cons j _ js _ h2 h3 =>
    rw [rankOf, rankOf]
    have hp := prod_pos' (Contained.pos h1)
    have r1 := rank_bounds h1
    have r2 := rank_bounds h3
    rw [List.cons_lt_cons_iff] at h
    rcases h with h | ⟨rfl, h⟩
    · have : i + 1 ≤ j := h
      nlinarith
    · have := ih h1 h3 h
      omega

theorem lt_total {a b : List Int} (h : a ≠ b) : a < b ∨ b < a := by
  rcases lt_trichotomy a b with h1 | h1 | h1
  · exact .inl h1
  · exact absurd h1 h
  · exact .inr h1

theorem rank_inj {a b ns : List Int} (ha : Contained a ns) (hb : Contained b ns) (h : rankOf a ns = rankOf b ns) :
    a = b := by
  by_contra hne
  rcases lt_total hne with h1 | h1
  · have := rank_lt_of_lt ha hb h1; omega
  · have := rank_lt_of_lt hb ha h1; omega

theorem lt_of_rank_lt {a b ns : List Int} (ha : Contained a ns) (hb : Contained b ns)
    (h : rankOf a ns < rankOf b ns) : a < b := by
  have hne : a ≠ b := fun e => by subst e; omega
  rcases lt_total hne with h1 | h1
  · exact h1
  · have := rank_lt_of_lt hb ha h1; omega

theorem rank_surj (ns : List Int) (hp : ∀ n ∈ ns, 0 < n) (m : Int) (h0 : 0 ≤ m) (h1 : m < ns.prod) :
    ∃ idx, Contained idx ns ∧ rankOf idx ns = m := by
  induction ns generalizing m with
  | nil => exact ⟨[], contained_nil, by simp at h1; simp [rankOf]; omega⟩
  | cons n ns ih =>
    have hpos := prod_pos' (ns := ns) fun m hm => hp m (by simp [hm])
    obtain ⟨is, h2, h3⟩ := ih (fun m hm => hp m (by simp [hm])) (m % ns.prod)
      (Int.emod_nonneg _ hpos.ne') (Int.emod_lt_of_pos _ hpos)
    refine ⟨m / ns.prod :: is, contained_cons.mpr ⟨⟨Int.ediv_nonneg h0 hpos.le, ?_⟩, h2⟩, ?_⟩
    · rw [List.prod_cons] at h1
      exact Int.ediv_lt_of_lt_mul hpos h1
    · rw [rankOf, h3, mul_comm]
      exact Int.mul_ediv_add_emod m ns.prod

/-! ## comparisons -/

theorem idxLt_iff (a b : List Int) (h : a.length = b.length) :
    idxLt a b = false ↔ List.Forall₂ (fun x y => y ≤ x) a b := by
  induction a generalizing b with
  | nil =>
    cases b with
    | nil => simp [idxLt]
    | cons _ _ => simp at h
  | cons x xs ih =>
    cases b with
    | nil => simp at h
    | cons y ys =>
      rw [idxLt, List.forall₂_cons, ← ih ys (by simpa using h)]
      by_cases hxy : x < y
      · simp [hxy]
      · simp [hxy, not_lt.mp hxy]

theorem idxGe_iff (a b : List Int) (h : a.length = b.length) :
    idxGe a b = true ↔ List.Forall₂ (fun x y => y ≤ x) a b := by
  rw [← idxLt_iff a b h]; simp [idxGe, idxGt]

theorem idxGe_contained {a b : List Int} (h : Contained a b) (hb : b ≠ []) : idxGe a b = false := by
  cases h with
  | nil => exact absurd rfl hb
  | @cons i n is ns h0 h1 => simp [idxGe, idxGt, idxLt, h0.2]

theorem idxGe_self (b : List Int) : idxGe b b = true := by
  rw [idxGe_iff b b rfl]
  exact List.forall₂_same.mpr fun x _ => le_refl x

/-! ## successor and predecessor -/

theorem incLoop_cons (n c : Int) (ns cs : List Int) (k : Nat) :
    incLoop (n :: ns) (c :: cs) (k + 1) =
      match incLoop ns cs k with
      | .ret r => .ret (c :: r)
      | .fell r => if c < n - 1 then .ret ((c + 1) :: r) else .fell (0 :: r) := by
  induction k generalizing cs with
  | zero => simp [incLoop]
  | succ k ih =>
    rw [incLoop]
    conv_rhs => rw [incLoop]
    simp only [List.getD_cons_succ, List.set_cons_succ]
    split
    · rfl
    · rw [ih]

theorem decLoop_cons (n c : Int) (ns cs : List Int) (k : Nat) :
    decLoop (n :: ns) (c :: cs) (k + 1) =
      match decLoop ns cs k with
      | .ret r => .ret (c :: r)
      | .fell r => if c ≥ 1 then .ret ((c - 1) :: r) else .fell ((n - 1) :: r) := by
  induction k generalizing cs with
  | zero => simp [decLoop]
  | succ k ih =>
    rw [decLoop]
    conv_rhs => rw [decLoop]
    simp only [List.getD_cons_succ, List.set_cons_succ]
    split
    · rfl
    · rw [ih]

theorem rank_zero (ns : List Int) : rankOf (List.replicate ns.length 0) ns = 0 := by
  induction ns with
  | nil => rfl
  | cons n ns ih => simp [List.replicate_succ, rankOf, ih]

theorem rank_last (ns : List Int) : rankOf (ns.map (· - 1)) ns = ns.prod - 1 := by
  induction ns with
  | nil => rfl
  | cons n ns ih => rw [List.map_cons, rankOf, ih, List.prod_cons]; ring

theorem contained_zero {ns : List Int} (h : ∀ n ∈ ns, 0 < n) : Contained (List.replicate ns.length 0) ns := by
  induction ns with
  | nil => exact contained_nil
  | cons n ns ih =>
    rw [List.length_cons, List.replicate_succ, contained_cons]
    exact ⟨⟨le_refl _, h n (by simp)⟩, ih fun m hm => h m (by simp [hm])⟩

theorem contained_last {ns : List Int} (h : ∀ n ∈ ns, 0 < n) : Contained (ns.map (· - 1)) ns := by
  induction ns with
  | nil => exact contained_nil
  | cons n ns ih =>
    rw [List.map_cons, contained_cons]
    have := h n (by simp)
    exact ⟨⟨by omega, by omega⟩, ih fun m hm => h m (by simp [hm])⟩

theorem incLoop_spec {x ns : List Int} (h : Contained x ns) :
    (∃ y, incLoop ns x ns.length = .ret y ∧ Contained y ns ∧ rankOf y ns = rankOf x ns + 1) ∨
    (incLoop ns x ns.length = .fell (List.replicate ns.length 0) ∧ rankOf x ns = ns.prod - 1) := by
  induction h with
  | nil => right; simp [incLoop, rankOf]
  | @cons i n is ns h0 h1 ih =>
    rw [List.length_cons, incLoop_cons]
    rcases ih with ⟨y, h2, h3, h4⟩ | ⟨h2, h3⟩
    · left
      refine ⟨i :: y, by rw [h2], contained_cons.mpr ⟨h0, h3⟩, ?_⟩
      rw [rankOf, rankOf, h4]; ring
    · rw [h2]
      by_cases hi : i < n - 1
      · left
        refine ⟨(i + 1) :: List.replicate ns.length 0, by simp [hi],
          contained_cons.mpr ⟨⟨by omega, by omega⟩, contained_zero (Contained.pos h1)⟩, ?_⟩
        rw [rankOf, rankOf, h3, rank_zero]; ring
      · right
        refine ⟨by simp [hi, List.replicate_succ], ?_⟩
        have : i = n - 1 := by omega
        rw [rankOf, h3, List.prod_cons, this]; ring

theorem decLoop_spec {x ns : List Int} (h : Contained x ns) :
    (∃ y, decLoop ns x ns.length = .ret y ∧ Contained y ns ∧ rankOf y ns = rankOf x ns - 1) ∨
    (decLoop ns x ns.length = .fell (ns.map (· - 1)) ∧ rankOf x ns = 0) := by
  induction h with
  | nil => right; simp [decLoop, rankOf]
  | @cons i n is ns h0 h1 ih =>
    rw [List.length_cons, decLoop_cons]
    rcases ih with ⟨y, h2, h3, h4⟩ | ⟨h2, h3⟩
    · left
      refine ⟨i :: y, by rw [h2], contained_cons.mpr ⟨h0, h3⟩, ?_⟩
      rw [rankOf, rankOf, h4]; ring
    · rw [h2]
      by_cases hi : i ≥ 1
      · left
        refine ⟨(i - 1) :: ns.map (· - 1), by simp [hi],
          contained_cons.mpr ⟨⟨by omega, by omega⟩, contained_last (Contained.pos h1)⟩, ?_⟩
        rw [rankOf, rankOf, h3, rank_last]; ring
      · right
        refine ⟨by simp [hi], ?_⟩
        have : i = 0 := by omega
        rw [rankOf, h3, this]; ring

theorem inc_spec {x ns : List Int} (h : Contained x ns) :
    (Contained (inc ns x) ns ∧ rankOf (inc ns x) ns = rankOf x ns + 1) ∨
    (inc ns x = ns ∧ rankOf x ns = ns.prod - 1) := by
  unfold inc
  rcases incLoop_spec h with ⟨y, h1, h2, h3⟩ | ⟨h1, h2⟩
  · left; rw [h1]; exact ⟨h2, h3⟩
  · right; rw [h1]; exact ⟨rfl, h2⟩

/-- extents below one behave like extents of one while stepping -/
theorem incLoop_max (ns x : List Int) (h : Contained x (ns.map (max 1))) :
    incLoop ns x ns.length = incLoop (ns.map (max 1)) x ns.length := by
  induction ns generalizing x with
  | nil => rfl
  | cons n ns ih =>
    cases x with
    | nil => cases h
    | cons c cs =>
      rw [List.map_cons, contained_cons] at h
      rw [List.length_cons, List.map_cons, incLoop_cons, incLoop_cons, ih cs h.2]
      cases incLoop (ns.map (max 1)) cs ns.length with
      | ret r => rfl
      | fell r =>
        have : (c < n - 1) ↔ (c < max 1 n - 1) := by omega
        simp only [this]

end Verif.ArrayView
