import Verif.Strings.Model
import Verif.Strings.Spec

namespace Verif.Strings
open Spec

/-! ## find -/

theorem findIn_none (pat s : Str) (i : Nat) (h : findIn pat s i = none) :
    ∀ p r, s ≠ p ++ pat ++ r := by
  induction s generalizing i with
  | nil =>
    intro p r e
    simp only [findIn] at h
    have : pat = [] := by
      have := congrArg List.length e
      simp only [List.length_nil, List.length_append] at this
      exact List.length_eq_zero_iff.1 (by omega)
    subst this; simp at h
  | cons c cs ih =>
    simp only [findIn] at h
    split at h
    · simp at h
    · next hp =>
      intro p r e
      cases p with
      | nil =>
        apply hp
        rw [List.isPrefixOf_iff_prefix]
        exact ⟨r, by simpa using e.symm⟩
      | cons x p =>
        simp only [List.cons_append, List.cons.injEq] at e
        exact ih _ h p r e.2

theorem findIn_some (pat s : Str) (i j : Nat) (h : findIn pat s i = some j) :
    ∃ p r, j = i + p.length ∧ FirstOccurrence pat s p r := by
  induction s generalizing i with
  | nil =>
    simp only [findIn] at h
    split at h
    · next hp =>
      simp only [Option.some.injEq] at h
      rw [List.isPrefixOf_iff_prefix] at hp
      obtain ⟨r, hr⟩ := hp
      exact ⟨[], r, by simp [h], by simp [hr], by simp⟩
    · simp at h
  | cons c cs ih =>
    simp only [findIn] at h
    split at h
    · next hp =>
      simp only [Option.some.injEq] at h
      rw [List.isPrefixOf_iff_prefix] at hp
      obtain ⟨r, hr⟩ := hp
      exact ⟨[], r, by simp [h], by simp [hr], by simp⟩
    · next hp =>
      obtain ⟨p, r, e, hf, hm⟩ := ih _ h
      refine ⟨c :: p, r, by simp; omega, by simp [hf], ?_⟩
      intro p' r' e'
      cases p' with
      | nil =>
        exfalso; apply hp
        rw [List.isPrefixOf_iff_prefix]
        exact ⟨r', by simpa using e'.symm⟩
      | cons x p' =>
        simp only [List.cons_append, List.cons.injEq] at e'
        have := hm p' r' e'.2
        simp; omega

/-! ## rfind -/

theorem rfind_none (c : Char) (s : Str) : rfind c s = none ↔ c ∉ s := by
  induction s with
  | nil => simp [rfind]
  | cons x xs ih =>
    simp only [rfind, List.mem_cons, not_or]
    cases h : rfind c xs with
    | none =>
      have := ih.1 h
      by_cases hx : x = c
      · simp [hx]
      · simp [hx, this, Ne.symm hx]
    | some i => simp; intro _; exact Classical.byContradiction fun hn => by simp [ih.2 hn] at h

theorem rfind_some (c : Char) (s : Str) (i : Nat) (h : rfind c s = some i) :
    ∃ a b, s = a ++ c :: b ∧ a.length = i ∧ c ∉ b := by
  induction s generalizing i with
  | nil => simp [rfind] at h
  | cons x xs ih =>
    simp only [rfind] at h
    cases h' : rfind c xs with
    | none =>
      rw [h'] at h
      by_cases hx : x = c
      · simp [hx] at h; subst hx
        exact ⟨[], xs, by simp, by simp [h], (rfind_none _ _).1 h'⟩
      · simp [hx] at h
    | some k =>
      rw [h'] at h
      simp only [Option.some.injEq] at h
      obtain ⟨a, b, e, hl, hb⟩ := ih k h'
      exact ⟨x :: a, b, by simp [e], by simp [hl]; omega, hb⟩

/-! ## decimal -/

theorem toNat_digitChar (d : Nat) (h : d < 10) : (digitChar d).toNat = 48 + d := by
  have : ∀ d : Fin 10, (digitChar d.1).toNat = 48 + d.1 := by decide
  exact this ⟨d, h⟩

theorem value_append (a b : Str) : value (a ++ b) = value a * 10 ^ b.length + value b := by
  have gen : ∀ (b : Str) (acc : Nat), b.foldl (fun acc c => 10 * acc + (c.toNat - 48)) acc
      = acc * 10 ^ b.length + value b := by
    intro b
    induction b with
    | nil => intro acc; simp [value]
    | cons c cs ih =>
      intro acc
      simp only [value, List.foldl_cons, List.length_cons]
      rw [ih, ih (10 * 0 + (c.toNat - 48))]
      rw [Nat.mul_zero, Nat.zero_add, Nat.pow_succ, Nat.add_mul, Nat.mul_comm 10 acc, Nat.mul_assoc, Nat.mul_comm 10]
      omega
  unfold value
  rw [List.foldl_append, gen]
  rfl

theorem value_decimal (n : Nat) : value (decimal n) = n := by
  induction n using Nat.strongRecOn with
  | ind n ih =>
    rw [decimal]
    split
    · next h => simp [value, toNat_digitChar n h]
    · next h =>
      rw [value_append, ih _ (by omega)]
      have : (10 : Nat) ^ [digitChar (n % 10)].length = 10 := by simp
      rw [this]
      simp only [value, List.foldl_cons, List.foldl_nil, toNat_digitChar _ (Nat.mod_lt n (by decide))]
      omega

theorem allDigits_decimal (n : Nat) : AllDigits (decimal n) := by
  induction n using Nat.strongRecOn with
  | ind n ih =>
    rw [decimal]
    have hd : ∀ d, d < 10 → 48 ≤ (digitChar d).toNat ∧ (digitChar d).toNat ≤ 57 := by
      intro d h; rw [toNat_digitChar d h]; omega
    split
    · next h => intro c hc; simp at hc; subst hc; exact hd n h
    · next h =>
      intro c hc
      rcases List.mem_append.1 hc with hc | hc
      · exact ih _ (by omega) c hc
      · simp at hc; subst hc; exact hd _ (Nat.mod_lt _ (by decide))

theorem digitsLoop_add (n k : Nat) : digitsLoop n (k + 1) = digitsLoop n k + 1 := by
  induction n using Nat.strongRecOn generalizing k with
  | ind n ih =>
    rw [digitsLoop]
    conv => rhs; rw [digitsLoop]
    split
    · rfl
    · exact ih _ (by omega) _

theorem numDigits_step (n : Nat) (h : ¬ n < 10) : numDigits n = numDigits (n / 10) + 1 := by
  unfold numDigits
  rw [digitsLoop, if_neg (by omega), digitsLoop_add]

theorem numDigits_small (n : Nat) (h : n < 10) : numDigits n = 1 := by
  unfold numDigits
  rw [digitsLoop, if_pos (by omega)]

theorem length_decimal (n : Nat) : (decimal n).length = numDigits n := by
  induction n using Nat.strongRecOn with
  | ind n ih =>
    rw [decimal]
    split
    · next h => rw [numDigits_small n h]; rfl
    · next h => rw [numDigits_step n h]; simp [ih _ (show n / 10 < n by omega)]

theorem value_zeros (k : Nat) (s : Str) : value (List.replicate k '0' ++ s) = value s := by
  induction k with
  | zero => simp
  | succ k ih =>
    rw [List.replicate_succ, List.cons_append]
    simp only [value, List.foldl_cons]
    exact ih

theorem value_lt (s : Str) (h : AllDigits s) : value s < 10 ^ s.length := by
  induction s with
  | nil => simp [value]
  | cons c cs ih =>
    have := ih fun x hx => h x (by simp [hx])
    have hc := h c (by simp)
    have e : value (c :: cs) = value [c] * 10 ^ cs.length + value cs := value_append [c] cs
    rw [e, List.length_cons, Nat.pow_succ]
    have hv : value [c] ≤ 9 := by simp [value]; omega
    have : value [c] * 10 ^ cs.length ≤ 9 * 10 ^ cs.length := Nat.mul_le_mul_right _ hv
    omega

/-- same-length digit strings compare like their values -/
theorem digits_lt_iff (a b : Str) (ha : AllDigits a) (hb : AllDigits b) (hl : a.length = b.length) :
    a < b ↔ value a < value b := by
  induction a generalizing b with
  | nil =>
    cases b with
    | nil => simp
    | cons => simp at hl
  | cons x xs ih =>
    cases b with
    | nil => simp at hl
    | cons y ys =>
      simp only [List.length_cons, Nat.add_right_cancel_iff] at hl
      have hxs : AllDigits xs := fun c hc => ha c (by simp [hc])
      have hys : AllDigits ys := fun c hc => hb c (by simp [hc])
      have := ih ys hxs hys hl
      have hx := ha x (by simp)
      have hy := hb y (by simp)
      have ex : value (x :: xs) = value [x] * 10 ^ xs.length + value xs := value_append [x] xs
      have ey : value (y :: ys) = value [y] * 10 ^ xs.length + value ys := by
        rw [hl]; exact value_append [y] ys
      have lx := value_lt xs hxs
      have ly := value_lt ys hys
      rw [← hl] at ly
      have vx : value [x] = x.toNat - 48 := by simp [value]
      have vy : value [y] = y.toNat - 48 := by simp [value]
      rw [List.cons_lt_cons_iff, this, ex, ey, vx, vy]
      have hlt : x < y ↔ x.toNat < y.toNat := Iff.rfl
      have heq : x = y ↔ x.toNat = y.toNat := by
        constructor
        · intro h; rw [h]
        · intro h; exact Char.ext (UInt32.toNat_inj.1 h)
      rw [hlt, heq]
      generalize 10 ^ xs.length = P at *
      generalize x.toNat = m at *
      generalize y.toNat = n at *
      rcases Nat.lt_trichotomy m n with h | h | h
      · simp only [h, true_or, true_iff]
        have : (m - 48 + 1) * P ≤ (n - 48) * P := Nat.mul_le_mul_right _ (by omega)
        rw [Nat.add_mul] at this
        omega
      · subst h; simp
      · have : (n - 48 + 1) * P ≤ (m - 48) * P := Nat.mul_le_mul_right _ (by omega)
        rw [Nat.add_mul] at this
        constructor
        · intro h'; omega
        · intro h'; omega

theorem allDigits_zeroPadded (n w : Nat) : AllDigits (zeroPadded n w) := by
  intro c hc
  rcases List.mem_append.1 hc with hc | hc
  · have := (List.mem_replicate.1 hc).2; subst this; decide
  · exact allDigits_decimal n c hc

/-! ## split -/

theorem extract_isSplit (sp : Char → Bool) (s : Str) : IsSplit (fun c => sp c = true) s (extract sp s) := by
  induction hn : s.length using Nat.strongRecOn generalizing s with
  | ind n ih =>
    have hs : s = s.takeWhile sp ++ s.dropWhile sp := (List.takeWhile_append_dropWhile).symm
    have hpre : ∀ c ∈ s.takeWhile sp, sp c = true := fun c hc => by
      have := @List.all_takeWhile _ sp s
      rw [List.all_eq_true] at this
      exact this c hc
    rw [extract]
    split
    · next h =>
      refine .done s ?_
      rw [h, List.append_nil] at hs
      rw [hs]; exact hpre
    · next c cs h =>
      have hc : sp c = false := by
        have := @List.head?_dropWhile_not _ sp s
        rw [h] at this; simpa using this
      have hcs : cs = (cs.takeWhile fun c => !sp c) ++ cs.dropWhile fun c => !sp c :=
        (List.takeWhile_append_dropWhile).symm
      have e : s = s.takeWhile sp ++ (c :: cs.takeWhile fun c => !sp c) ++ cs.dropWhile fun c => !sp c := by
        conv => lhs; rw [hs, h, hcs]
        simp
      have hlen : (cs.dropWhile fun c => !sp c).length < n := by
        have h1 : (s.dropWhile sp).length ≤ s.length := (List.dropWhile_sublist sp).length_le
        have h2 : (cs.dropWhile fun c => !sp c).length ≤ cs.length := (List.dropWhile_sublist _).length_le
        rw [h] at h1; simp at h1; omega
      conv => arg 2; rw [e]
      refine .token _ _ _ _ hpre (by simp) ?_ ?_ (ih _ hlen _ rfl)
      · intro x hx
        rcases List.mem_cons.1 hx with hx | hx
        · subst hx; simp [hc]
        · have := @List.all_takeWhile _ (fun c => !sp c) cs
          rw [List.all_eq_true] at this
          have := this x hx; simpa using this
      · intro x xs hx
        have := @List.head?_dropWhile_not _ (fun c => !sp c) cs
        rw [hx] at this; simpa using this

theorem isSplit_congr {d d' : Char → Prop} {s : Str} {ts : List Str} (h : IsSplit d s ts)
    (hd : ∀ c ∈ s, d c ↔ d' c) : IsSplit d' s ts := by
  induction h with
  | done s h => exact .done s fun c hc => (hd c hc).1 (h c hc)
  | token pre t rest ts h1 h2 h3 h4 h5 ih =>
    refine .token pre t rest ts (fun c hc => (hd c (by simp [hc])).1 (h1 c hc)) h2
      (fun c hc hh => h3 c hc ((hd c (by simp [hc])).2 hh))
      (fun c cs e => (hd c (by simp [e])).1 (h4 c cs e)) (ih fun c hc => hd c (by simp [hc]))

end Verif.Strings
