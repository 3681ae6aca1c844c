import Verif.Inflate.Bits
import Mathlib.Algebra.Order.Ring.Nat
import Mathlib.Tactic.Ring

/-!
# Lemmas about codes: what the tables of the decoder hold
-/

namespace Verif.Inflate

variable {inp : List UInt8}

/-- the number of symbols with codes of a length -/
def cntOf (ls : List Nat) (s : Nat) : Nat := if s = 0 then 0 else ls.count s

/-- the first code of a length -/
def firstOf (cnt : Nat → Nat) : Nat → Nat
  | 0 => 0
  | s + 1 => 2 * (firstOf cnt s + cnt s)

/-- the number of symbols with shorter codes -/
def fsymOf (cnt : Nat → Nat) : Nat → Nat
  | 0 => 0
  | s + 1 => fsymOf cnt s + cnt s

/-- the number of symbols before, with codes of the same length -/
def rankOf (ls : List Nat) (i : Nat) : Nat := (ls.take i).count (lenOf ls i)

/-- what the shorter codes take -/
def weight (ls : List Nat) (s : Nat) : Nat := (ls.map fun l => if 0 < l ∧ l < s then 2 ^ (s - l) else 0).sum

theorem weight_succ (ls : List Nat) (s : Nat) : weight ls (s + 1) = 2 * (weight ls s + cntOf ls s) := by
  induction ls with
  | nil => simp [weight, cntOf]
  | cons l ls ih =>
    have h : weight (l :: ls) (s + 1) = (if 0 < l ∧ l < s + 1 then 2 ^ (s + 1 - l) else 0) + weight ls (s + 1) := by
      simp [weight]
    have h' : weight (l :: ls) s = (if 0 < l ∧ l < s then 2 ^ (s - l) else 0) + weight ls s := by
      simp [weight]
    have hc : cntOf (l :: ls) s = (if 0 < s ∧ l = s then 1 else 0) + cntOf ls s := by
      rw [cntOf, cntOf]
      by_cases h0 : s = 0
      · simp [h0]
      · have : 0 < s := by omega
        simp only [h0, if_false, List.count_cons, this, true_and]
        by_cases hl : l = s
        · simp [hl]; omega
        · simp [hl]
    rw [h, h', hc, ih]
    rcases Nat.lt_trichotomy l s with hl | hl | hl
    · by_cases h0 : 0 < l
      · have e : s + 1 - l = (s - l) + 1 := by omega
        rw [if_pos ⟨h0, by omega⟩, if_pos ⟨h0, hl⟩, if_neg (by omega), e, Nat.pow_succ]
        omega
      · rw [if_neg (by omega), if_neg (by omega), if_neg (by omega)]
        omega
    · by_cases h0 : 0 < l
      · subst hl
        rw [if_pos ⟨h0, by omega⟩, if_neg (by omega), if_pos ⟨h0, rfl⟩]
        have e : l + 1 - l = 1 := by omega
        rw [e]
        omega
      · rw [if_neg (by omega), if_neg (by omega), if_neg (by omega)]
        omega
    · rw [if_neg (by omega), if_neg (by omega), if_neg (by omega)]
      omega

theorem weight_first (ls : List Nat) (s : Nat) : weight ls s = firstOf (cntOf ls) s := by
  induction s with
  | zero =>
    rw [firstOf, weight]
    induction ls with
    | nil => rfl
    | cons l ls ih => simpa using ih
  | succ s ih => rw [weight_succ, firstOf, ih]

theorem lenOf_pos {ls : List Nat} {i : Nat} (h : 0 < lenOf ls i) : ∃ hi : i < ls.length, lenOf ls i = ls[i] := by
  rw [lenOf] at h
  rcases Nat.lt_or_ge i ls.length with h1 | h1
  · exact ⟨h1, by simp [lenOf, h1]⟩
  · rw [List.getElem?_eq_none h1] at h
    simp at h

theorem codeOf_eq {ls : List Nat} {i : Nat} (h : 0 < lenOf ls i) :
    codeOf ls i = firstOf (cntOf ls) (lenOf ls i) + rankOf ls i := by
  obtain ⟨hi, _⟩ := lenOf_pos h
  have main : ∀ n, n ≤ ls.length →
      ((List.range n).map fun j => if before ls j i then 2 ^ (lenOf ls i - lenOf ls j) else 0).sum =
        weight (ls.take n) (lenOf ls i) + (ls.take (min n i)).count (lenOf ls i) := by
    intro n
    induction n with
    | zero => intro _; simp [weight]
    | succ n ih =>
      intro hn
      have hg : lenOf ls n = ls[n] := by rw [lenOf, List.getElem?_eq_getElem (by omega)]; rfl
      rw [List.range_succ, List.map_append, List.sum_append, ih (by omega), List.take_succ_eq_append_getElem (by omega)]
      have hw : weight (ls.take n ++ [ls[n]]) (lenOf ls i) = weight (ls.take n) (lenOf ls i) +
          (if 0 < ls[n] ∧ ls[n] < lenOf ls i then 2 ^ (lenOf ls i - ls[n]) else 0) := by
        rw [weight, weight, List.map_append, List.sum_append]
        simp only [List.map_cons, List.map_nil, List.sum_cons, List.sum_nil, Nat.add_zero]
      rw [hw]
      simp only [List.map_cons, List.map_nil, List.sum_cons, List.sum_nil, before, hg]
      rcases Nat.lt_or_ge n i with hni | hni
      · have e1 : min n i = n := by omega
        have e2 : min (n + 1) i = n + 1 := by omega
        rw [e1, e2, List.take_succ_eq_append_getElem (by omega), List.count_append, List.count_singleton]
        by_cases hl : ls[n] = lenOf ls i
        · have hp : 0 < ls[n] := by omega
          simp [hl, hni, h]
          omega
        · have : (ls[n] == lenOf ls i) = false := by simp [hl]
          simp only [this, hl, false_and, or_false, Bool.false_eq_true, if_false]
          omega
      · have e1 : min n i = i := by omega
        have e2 : min (n + 1) i = i := by omega
        rw [e1, e2]
        have : ¬ (ls[n] = lenOf ls i ∧ n < i) := by omega
        simp only [this, or_false]
        omega
  rw [codeOf, main ls.length (Nat.le_refl _), List.take_length, weight_first, rankOf]
  have : min ls.length i = i := by omega
  rw [this]

theorem rank_lt {ls : List Nat} {i : Nat} (h : 0 < lenOf ls i) : rankOf ls i < cntOf ls (lenOf ls i) := by
  obtain ⟨hi, he⟩ := lenOf_pos h
  rw [cntOf, if_neg (by omega), rankOf]
  have : ls.count (lenOf ls i) = (ls.take i).count (lenOf ls i) + (ls.drop i).count (lenOf ls i) := by
    rw [← List.count_append, List.take_append_drop]
  rw [this, List.drop_eq_getElem_cons hi, ← he, List.count_cons]
  simp

theorem rank_inj {ls : List Nat} {i j : Nat} (hi : 0 < lenOf ls i) (he : lenOf ls i = lenOf ls j) (hr : rankOf ls i = rankOf ls j) :
    i = j := by
  have main : ∀ {i j : Nat}, 0 < lenOf ls i → lenOf ls i = lenOf ls j → i < j → rankOf ls i < rankOf ls j := by
    intro i j hi he hij
    obtain ⟨h1, h2⟩ := lenOf_pos hi
    obtain ⟨h3, h4⟩ := lenOf_pos (he ▸ hi)
    rw [rankOf, rankOf, ← he]
    have e : ls.take j = ls.take i ++ (ls[i] :: (ls.take j).drop (i + 1)) := by
      have h5 : (ls.take j).drop i = (ls.take j)[i]'(by simp; omega) :: (ls.take j).drop (i + 1) :=
        List.drop_eq_getElem_cons (by simp; omega)
      have h6 : ls.take i = (ls.take j).take i := by rw [List.take_take]; congr 1; omega
      rw [h6]
      conv => lhs; rw [← List.take_append_drop i (ls.take j)]
      rw [h5]
      simp
    rw [e, List.count_append, ← h2, List.count_cons]
    simp
  rcases Nat.lt_trichotomy i j with h | h | h
  · have := main hi he h; omega
  · exact h
  · have := main (he ▸ hi) he.symm h; omega

theorem exists_rank {ls : List Nat} {t r : Nat} (ht : 0 < t) (hr : r < cntOf ls t) : ∃ i, lenOf ls i = t ∧ rankOf ls i = r := by
  rw [cntOf, if_neg (by omega)] at hr
  have main : ∀ n, n ≤ ls.length → r < (ls.take n).count t → ∃ i, i < n ∧ lenOf ls i = t ∧ rankOf ls i = r := by
    intro n
    induction n with
    | zero => intro _ h; simp at h
    | succ n ih =>
      intro hn h
      rw [List.take_succ_eq_append_getElem (by omega), List.count_append, List.count_singleton] at h
      rcases Nat.lt_or_ge r ((ls.take n).count t) with h1 | h1
      · obtain ⟨i, h2, h3⟩ := ih (by omega) h1
        exact ⟨i, by omega, h3⟩
      · have hg : lenOf ls n = ls[n] := by rw [lenOf, List.getElem?_eq_getElem (by omega)]; rfl
        by_cases he : ls[n] = t
        · refine ⟨n, by omega, hg.trans he, ?_⟩
          rw [rankOf, hg, he]
          simp [he] at h
          omega
        · simp [he] at h
          omega
  obtain ⟨i, _, h⟩ := main ls.length (Nat.le_refl _) (by rwa [List.take_length])
  exact ⟨i, h⟩

/-! ## Which lengths fit -/

theorem first_le (cnt : Nat → Nat) (s d : Nat) : 2 ^ (d + 1) * (firstOf cnt s + cnt s) ≤ firstOf cnt (s + d + 1) := by
  induction d with
  | zero => rw [firstOf]; simp
  | succ d ih =>
    rw [← Nat.add_assoc, firstOf, Nat.pow_succ, Nat.mul_comm (2 ^ (d + 1)) 2, Nat.mul_assoc]
    exact Nat.mul_le_mul_left 2 (Nat.le_trans ih (Nat.le_add_right _ _))

theorem first_le' (cnt : Nat → Nat) {s t : Nat} (h : s < t) : 2 ^ (t - s) * (firstOf cnt s + cnt s) ≤ firstOf cnt t := by
  have := first_le cnt s (t - s - 1)
  have e1 : t - s - 1 + 1 = t - s := by omega
  have e2 : s + (t - s - 1) + 1 = t := by omega
  rwa [e1, e2] at this

theorem kraft_sum (ls : List Nat) (h : ∀ l ∈ ls, l ≤ 15) :
    (ls.map fun l => if l = 0 then 0 else 2 ^ (15 - l)).sum = firstOf (cntOf ls) 15 + cntOf ls 15 := by
  rw [← weight_first, cntOf, if_neg (by decide)]
  induction ls with
  | nil => simp [weight]
  | cons l ls ih =>
    have hw : weight (l :: ls) 15 = (if 0 < l ∧ l < 15 then 2 ^ (15 - l) else 0) + weight ls 15 := by simp [weight]
    have hl : l ≤ 15 := h l (by simp)
    rw [List.map_cons, List.sum_cons, ih (fun x hx => h x (by simp [hx])), hw, List.count_cons]
    rcases Nat.lt_trichotomy l 15 with h1 | h1 | h1
    · have : (l == 15) = false := by simp; omega
      rw [this]
      by_cases h0 : l = 0
      · simp [h0]
      · rw [if_neg h0, if_pos ⟨by omega, h1⟩]
        simp
        omega
    · subst h1
      simp
      omega
    · omega

theorem fits_iff (ls : List Nat) : Fits ls ↔ (∀ l ∈ ls, l ≤ 15) ∧ ∀ s, s ≤ 15 → firstOf (cntOf ls) s + cntOf ls s ≤ 2 ^ s := by
  rw [Fits]
  constructor
  · rintro ⟨h1, h2⟩
    refine ⟨h1, fun s hs => ?_⟩
    rw [kraft_sum ls h1] at h2
    rcases Nat.lt_or_eq_of_le hs with h | h
    · have h3 := first_le' (cntOf ls) h
      have h4 : 2 ^ (15 - s) * (firstOf (cntOf ls) s + cntOf ls s) ≤ 2 ^ (15 - s) * 2 ^ s := by
        rw [← Nat.pow_add]
        have : 15 - s + s = 15 := by omega
        rw [this]
        omega
      exact Nat.le_of_mul_le_mul_left h4 (Nat.two_pow_pos _)
    · rw [h]; exact h2
  · rintro ⟨h1, h2⟩
    exact ⟨h1, by rw [kraft_sum ls h1]; exact h2 15 (by decide)⟩

theorem fsym_mono (cnt : Nat → Nat) {s t : Nat} (h : s ≤ t) : fsymOf cnt s ≤ fsymOf cnt t := by
  induction t with
  | zero => have : s = 0 := by omega
            rw [this]
  | succ t ih =>
    rcases Nat.lt_or_eq_of_le h with h1 | h1
    · have := ih (by omega)
      rw [fsymOf]
      omega
    · rw [h1]

theorem fsym_count (ls : List Nat) (s : Nat) : fsymOf (cntOf ls) s = (ls.filter fun l => decide (0 < l ∧ l < s)).length := by
  induction s with
  | zero =>
    rw [fsymOf, eq_comm, List.length_eq_zero_iff, List.filter_eq_nil_iff]
    simp
  | succ s ih =>
    rw [fsymOf, ih, cntOf]
    by_cases h0 : s = 0
    · subst h0
      rw [if_pos rfl, Nat.add_zero]
      congr 1
      apply List.filter_congr
      intro l _
      simp only [decide_eq_decide]
      omega
    · rw [if_neg h0]
      clear ih
      induction ls with
      | nil => simp
      | cons l ls ih2 =>
        rw [List.count_cons]
        simp only [List.filter_cons]
        rcases Nat.lt_trichotomy l s with h1 | h1 | h1
        · have : (l == s) = false := by simp; omega
          by_cases hp : 0 < l
          · have h2 : l < s + 1 := by omega
            simp [hp, h1, h2, this] at ih2 ⊢
            omega
          · simp [hp, this] at ih2 ⊢
            omega
        · have hp : 0 < l := by omega
          have h2 : l < s + 1 := by omega
          have h3 : ¬ l < s := by omega
          simp [h1] at ih2 ⊢
          have : 0 < s := by omega
          simp [this]
          omega
        · have : (l == s) = false := by simp; omega
          have h2 : ¬ l < s + 1 := by omega
          have h3 : ¬ l < s := by omega
          simp [h2, h3, this] at ih2 ⊢
          omega

theorem fsym_le (ls : List Nat) (s : Nat) : fsymOf (cntOf ls) s ≤ ls.length := by
  rw [fsym_count]
  exact List.length_filter_le _ _

theorem slot_lt {ls : List Nat} {i : Nat} (h : 0 < lenOf ls i) :
    fsymOf (cntOf ls) (lenOf ls i) + rankOf ls i < ls.length := by
  have h1 := rank_lt h
  have h2 := fsym_le ls (lenOf ls i + 1)
  rw [fsymOf] at h2
  omega

theorem slot_inj {ls : List Nat} {i j : Nat} (hi : 0 < lenOf ls i) (hj : 0 < lenOf ls j)
    (h : fsymOf (cntOf ls) (lenOf ls i) + rankOf ls i = fsymOf (cntOf ls) (lenOf ls j) + rankOf ls j) : i = j := by
  have main : ∀ {i j : Nat}, 0 < lenOf ls i → lenOf ls i < lenOf ls j →
      fsymOf (cntOf ls) (lenOf ls i) + rankOf ls i < fsymOf (cntOf ls) (lenOf ls j) + rankOf ls j := by
    intro i j hi hl
    have h1 := rank_lt hi
    have h2 := fsym_mono (cntOf ls) (Nat.succ_le_of_lt hl)
    rw [Nat.succ_eq_add_one, fsymOf] at h2
    omega
  rcases Nat.lt_trichotomy (lenOf ls i) (lenOf ls j) with hl | hl | hl
  · have := main (j := j) hi hl; omega
  · rw [hl] at h
    exact rank_inj hi hl (by omega)
  · have := main (j := i) hj hl; omega

/-! ## At most one code is at a place -/

theorem code_bounds {ls : List Nat} {i : Nat} (h : 0 < lenOf ls i) :
    firstOf (cntOf ls) (lenOf ls i) ≤ codeOf ls i ∧ codeOf ls i < firstOf (cntOf ls) (lenOf ls i) + cntOf ls (lenOf ls i) := by
  have := rank_lt h
  rw [codeOf_eq h]
  omega

theorem msb_first {p s t : Nat} {cnt : Nat → Nat} (hst : s < t) (h : msb inp p s < firstOf cnt s + cnt s) :
    msb inp p t < firstOf cnt t := by
  have h1 := msb_div (inp := inp) p s (t - s)
  have e : s + (t - s) = t := by omega
  rw [e] at h1
  have h2 : msb inp p t < 2 ^ (t - s) * (firstOf cnt s + cnt s) := by
    rw [← h1] at h
    rw [Nat.mul_comm]
    exact (Nat.div_lt_iff_lt_mul (Nat.two_pow_pos _)).mp h
  exact Nat.lt_of_lt_of_le h2 (first_le' cnt hst)

theorem sym_unique {ls : List Nat} {p i j : Nat} (hi : SymAt inp ls p i) (hj : SymAt inp ls p j) : i = j := by
  have main : ∀ {i j : Nat}, SymAt inp ls p i → SymAt inp ls p j → ¬ lenOf ls i < lenOf ls j := by
    intro i j hi hj hl
    have h1 := code_bounds hi.1
    have h2 := code_bounds hj.1
    have h3 := msb_first (inp := inp) (p := p) (cnt := cntOf ls) hl (by rw [hi.2]; exact h1.2)
    rw [hj.2] at h3
    omega
  have hl : lenOf ls i = lenOf ls j := by
    have h1 := main hi hj
    have h2 := main hj hi
    omega
  refine rank_inj hi.1 hl ?_
  have h1 := hi.2
  have h2 := hj.2
  rw [codeOf_eq hi.1] at h1
  rw [codeOf_eq hj.1] at h2
  rw [hl] at h1
  omega

/-- a code is at a place exactly if for some length the bits are below the codes that are longer -/
theorem sym_exists {ls : List Nat} {p t : Nat} (ht : 0 < t) (h : msb inp p t < firstOf (cntOf ls) t + cntOf ls t)
    (hmin : ∀ s, 0 < s → s < t → firstOf (cntOf ls) s + cntOf ls s ≤ msb inp p s) : ∃ i, lenOf ls i = t ∧ SymAt inp ls p i := by
  have hge : firstOf (cntOf ls) t ≤ msb inp p t := by
    match t, ht with
    | 1, _ => simp [firstOf, cntOf]
    | t + 2, _ =>
      have := hmin (t + 1) (by omega) (by omega)
      rw [firstOf, msb]
      omega
  obtain ⟨i, h1, h2⟩ := exists_rank ht (r := msb inp p t - firstOf (cntOf ls) t) (ls := ls) (by omega)
  refine ⟨i, h1, by omega, ?_⟩
  rw [codeOf_eq (by omega), h1, h2]
  omega

end Verif.Inflate
