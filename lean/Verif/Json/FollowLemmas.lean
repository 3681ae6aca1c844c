import Verif.Json.PointerLemmas
import Verif.Json.NumLemmas
import Verif.Json.ReadBackLemmas

/-!
# Lemmas about following pointers
-/

namespace Verif.Json
open Spec

namespace Spec

/-- what the library reads as an integer: white space, a sign, digits -/
def IntText (t : Bytes) (i : Int) : Prop :=
  ∃ w sg ds, t = w ++ sg ++ ds ∧ (∀ c ∈ w, c = 0x20 ∨ (0x09 ≤ c ∧ c ≤ 0x0d)) ∧ ds ≠ [] ∧ (∀ c ∈ ds, Digit c) ∧
    ((sg = [] ∧ i = decimal ds) ∨ (sg = [0x2b] ∧ i = decimal ds) ∨ (sg = [0x2d] ∧ i = -(decimal ds : Int)))

end Spec

theorem cSpace_iff {c : Nat} : cSpace c = true ↔ (c = 0x20 ∨ (0x09 ≤ c ∧ c ≤ 0x0d)) := by
  simp [cSpace]

theorem dropWhile_all {p : Nat → Bool} : ∀ {w r : Bytes}, (∀ c ∈ w, p c = true) → (∀ c, r.head? = some c → p c = false) →
    (w ++ r).dropWhile p = r
  | [], [], _, _ => rfl
  | [], c :: r, _, h => by simp [h c rfl]
  | c :: w, r, hw, h => by
    rw [List.cons_append, List.dropWhile_cons, if_pos (hw c (by simp))]
    exact dropWhile_all (fun d hd => hw d (by simp [hd])) h

theorem mem_takeWhile_imp {p : Nat → Bool} {w : Bytes} {c : Nat} (h : c ∈ w.takeWhile p) : p c = true := by
  induction w with
  | nil => simp at h
  | cons d w ih =>
    rw [List.takeWhile_cons] at h
    by_cases hd : p d = true
    · rw [if_pos hd] at h
      rcases List.mem_cons.mp h with rfl | h
      · exact hd
      · exact ih h
    · rw [if_neg hd] at h; simp at h

theorem takeWhile_all {p : Nat → Bool} {w : Bytes} (hw : ∀ c ∈ w, p c = true) : w.takeWhile p = w := by
  induction w with
  | nil => rfl
  | cons c w ih => rw [List.takeWhile_cons, if_pos (hw c (by simp)), ih (fun d hd => hw d (by simp [hd]))]

/-- the sign and the digits that `arrayIndex` looks at, after white space -/
theorem arrayIndex_text {w sg ds : Bytes} (hw : ∀ c ∈ w, c = 0x20 ∨ (0x09 ≤ c ∧ c ≤ 0x0d)) (hd : ds ≠ [])
    (hds : ∀ c ∈ ds, Digit c) (hsg : sg = [] ∨ sg = [0x2b] ∨ sg = [0x2d]) :
    arrayIndex (w ++ sg ++ ds) =
      (let v : Int := if sg = [0x2d] then -(decimal ds : Int) else decimal ds
       if v < -2 ^ 31 ∨ 2 ^ 31 ≤ v then .range else .num v) := by
  have h1 : (w ++ sg ++ ds).dropWhile cSpace = sg ++ ds := by
    rw [List.append_assoc]
    refine dropWhile_all (fun c hc => cSpace_iff.mpr (hw c hc)) ?_
    intro c hc
    rw [Bool.eq_false_iff, Ne, cSpace_iff]
    rcases hsg with rfl | rfl | rfl
    · cases ds with
      | nil => exact absurd rfl hd
      | cons d ds =>
        simp at hc
        have := hds d (by simp)
        unfold Digit at this
        omega
    · simp at hc; omega
    · simp at hc; omega
  have h2 : ds.takeWhile isDigit = ds := takeWhile_all (fun c hc => isDigit_iff.mpr (hds c hc))
  have h3 : ds.dropWhile isDigit = [] := by
    have := dropWhile_all (p := isDigit) (w := ds) (r := []) (fun c hc => isDigit_iff.mpr (hds c hc)) (by simp)
    simpa using this
  have h4 : ds.isEmpty = false := by cases ds <;> simp at hd ⊢
  rw [arrayIndex, h1]
  rcases hsg with rfl | rfl | rfl
  · cases ds with
    | nil => exact absurd rfl hd
    | cons d ds' =>
      have hd0 := hds d (by simp)
      have e1 : (some d == some 0x2d) = false := by
        unfold Digit at hd0; simp; omega
      have e2 : (some d == some 0x2b) = false := by
        unfold Digit at hd0; simp; omega
      simp only [List.nil_append, List.head?_cons, e1, e2, Bool.or_self]
      simp only [Bool.false_eq_true, if_false, h2, h3, h4, decVal_eq, List.isEmpty_nil, if_true]
      simp
  · simp [h2, h3, h4, decVal_eq]
  · simp [h2, h3, h4, decVal_eq]

theorem arrayIndex_iff {t : Bytes} {i : Int} : arrayIndex t = .num i ↔ IntText t i ∧ -2 ^ 31 ≤ i ∧ i < 2 ^ 31 := by
  constructor
  · intro h
    rw [arrayIndex] at h
    set s1 := t.dropWhile cSpace with hs1
    set s2 := if (s1.head? == some 0x2d || s1.head? == some 0x2b) = true then s1.tail else s1 with hs2
    generalize hv : (if (s1.head? == some 0x2d) = true then -(decVal (s2.takeWhile isDigit) : Int)
      else decVal (s2.takeWhile isDigit)) = v at h
    split at h
    · cases h
    rename_i hne
    split at h
    · cases h
    rename_i hr
    split at h
    swap
    · cases h
    rename_i hend
    injection h with h
    subst h
    rename' hv => h
    have e2 : s2 = s2.takeWhile isDigit := by
      have := List.takeWhile_append_dropWhile (p := isDigit) (l := s2)
      rw [List.isEmpty_iff.mp hend, List.append_nil] at this
      exact this.symm
    have hdig : ∀ c ∈ s2.takeWhile isDigit, Digit c := fun c hc => isDigit_iff.mp (mem_takeWhile_imp hc)
    have hsp : ∀ c ∈ t.takeWhile cSpace, c = 0x20 ∨ (0x09 ≤ c ∧ c ≤ 0x0d) :=
      fun c hc => cSpace_iff.mp (mem_takeWhile_imp hc)
    have ht : t = t.takeWhile cSpace ++ s1 := (List.takeWhile_append_dropWhile (p := cSpace) (l := t)).symm
    refine ⟨?_, by omega, by omega⟩
    rw [decVal_eq] at h
    have hne' : s2.takeWhile isDigit ≠ [] := fun e => hne (by rw [e]; rfl)
    by_cases hm : (s1.head? == some 0x2d) = true
    · have : s1 = [0x2d] ++ s2 := by
        rw [hs2, hm]
        cases hs : s1 with
        | nil => rw [hs] at hm; simp at hm
        | cons a r => rw [hs] at hm; simp at hm; simp [hm]
      refine ⟨_, [0x2d], s2.takeWhile isDigit, ?_, hsp, hne', hdig, .inr (.inr ⟨rfl, ?_⟩)⟩
      · rw [← e2, List.append_assoc, ← this]; exact ht
      · rw [hm] at h; simpa using h.symm
    · rw [Bool.not_eq_true] at hm
      rw [hm] at h
      by_cases hp : (s1.head? == some 0x2b) = true
      · have : s1 = [0x2b] ++ s2 := by
          rw [hs2, hm, hp]
          cases hs : s1 with
          | nil => rw [hs] at hp; simp at hp
          | cons a r => rw [hs] at hp; simp at hp; simp [hp]
        refine ⟨_, [0x2b], s2.takeWhile isDigit, ?_, hsp, hne', hdig, .inr (.inl ⟨rfl, ?_⟩)⟩
        · rw [← e2, List.append_assoc, ← this]; exact ht
        · simpa using h.symm
      · rw [Bool.not_eq_true] at hp
        have : s1 = s2 := by rw [hs2, hm, hp]; rfl
        refine ⟨_, [], s2.takeWhile isDigit, ?_, hsp, hne', hdig, .inl ⟨rfl, ?_⟩⟩
        · rw [← e2, List.append_nil, ← this]; exact ht
        · simpa using h.symm
  · rintro ⟨⟨w, sg, ds, rfl, hw, hd, hds, h⟩, h1, h2⟩
    rcases h with ⟨rfl, rfl⟩ | ⟨rfl, rfl⟩ | ⟨rfl, rfl⟩
    · rw [arrayIndex_text hw hd hds (.inl rfl)]
      simp only [List.nil_eq, List.cons_ne_nil, if_false]
      rw [if_neg (by omega)]
    · rw [arrayIndex_text hw hd hds (.inr (.inl rfl))]
      simp only [List.cons.injEq, Nat.reduceEqDiff, false_and, if_false]
      rw [if_neg (by omega)]
    · rw [arrayIndex_text hw hd hds (.inr (.inr rfl))]
      simp only [if_true]
      rw [if_neg (by omega)]

theorem arrayIndex_toStr {n : Nat} (h : n < 2 ^ 31) : arrayIndex (toStr n) = .num n := by
  rw [arrayIndex_iff, toStr_eq]
  refine ⟨⟨[], [], digits n, by simp, by simp, ?_, digits_digit n, .inl ⟨rfl, by rw [decimal_digits]⟩⟩, by omega, by omega⟩
  intro e
  have := digits_pos n
  rw [e] at this
  simp at this

theorem arrayIndex_big {n : Nat} (h : 2 ^ 31 ≤ n) : arrayIndex (toStr n) = .range := by
  have hne : digits n ≠ [] := by
    intro e
    have := digits_pos n
    rw [e] at this
    simp at this
  have := arrayIndex_text (w := []) (sg := []) (ds := digits n) (by simp) hne (digits_digit n) (.inl rfl)
  rw [toStr_eq]
  simp only [List.nil_append, decimal_digits] at this
  rw [this]
  simp only [reduceCtorEq, if_false]
  rw [if_pos (by omega)]

theorem sizeT_nat {n : Nat} (h : n < 2 ^ 64) : sizeT n = n := by
  rw [sizeT]; omega

theorem tokenIndex_toStr {n : Nat} (h : n < 2 ^ 31) : tokenIndex (toStr n) = .ok n := by
  rw [tokenIndex, arrayIndex_toStr h]
  simp only
  rw [sizeT_nat (by omega)]

theorem bareIndex_toStr {n : Nat} (h : n < 2 ^ 31) : bareIndex (toStr n) = .ok n := by
  rw [bareIndex, arrayIndex_toStr h]
  simp only
  rw [sizeT_nat (by omega)]

theorem toStr_minus (n : Nat) : toStr n ≠ [0x2d] := by
  rw [toStr_eq]
  intro e
  have := digits_digit n 0x2d (by rw [e]; simp)
  unfold Digit at this
  omega

theorem zeroLed_toStr (n : Nat) : zeroLed (toStr n) = false := by
  rw [toStr_eq, zeroLed]
  by_cases h : n < 10
  · rw [digits_small h]; simp
  · have := digits_head (x := n) (by omega)
    simp [this]

end Verif.Json
