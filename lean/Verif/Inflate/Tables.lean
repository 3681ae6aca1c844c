import Verif.Inflate.Canon

/-!
# Lemmas about the tables that are built, and decoding with them
-/

namespace Verif.Inflate

variable {inp : List UInt8}

theorem testBit_bitReverse (v s i : Nat) (hs : s ≤ 16) : (bitReverse v s).testBit i = (decide (i < s) && v.testBit (s - 1 - i)) := by
  rw [bitReverse, Nat.testBit_shiftRight, testBit_reverse]
  have e1 : (16 - s + i < 16) ↔ i < s := by omega
  have e2 : 15 - (16 - s + i) = s - 1 - i := by omega
  rw [e2]
  simp only [e1]

theorem bitReverse_lt (v s : Nat) (hs : s ≤ 16) : bitReverse v s < 2 ^ s := by
  apply Nat.lt_pow_two_of_testBit
  intro i hi
  rw [testBit_bitReverse v s i hs]
  simp [Nat.not_lt.mpr hi]

theorem bitReverse_lsb {p s c : Nat} (hs : s ≤ 16) (hc : c < 2 ^ s) : bitReverse c s = lsb inp p s ↔ msb inp p s = c := by
  constructor
  · intro h
    apply Nat.eq_of_testBit_eq
    intro i
    rw [testBit_msb]
    by_cases hi : i < s
    · have h1 := testBit_bitReverse c s (s - 1 - i) hs
      rw [h, testBit_lsb] at h1
      have e1 : s - 1 - i < s := by omega
      have e2 : s - 1 - (s - 1 - i) = i := by omega
      simp only [e1, decide_true, Bool.true_and, e2] at h1
      simp [hi, h1]
    · rw [Nat.testBit_lt_two_pow (Nat.lt_of_lt_of_le hc (Nat.pow_le_pow_right (by decide) (by omega)))]
      simp [hi]
  · intro h
    subst h
    apply Nat.eq_of_testBit_eq
    intro i
    rw [testBit_bitReverse _ _ _ hs, testBit_msb, testBit_lsb]
    by_cases hi : i < s
    · have e1 : s - 1 - i < s := by omega
      have e2 : s - 1 - (s - 1 - i) = i := by omega
      simp [hi, e1, e2]
    · simp [hi]

/-! ## The first two loops -/

theorem rows_spec (cnt : Nat → Nat) : ∀ (n i : Nat) (h : Huff) (next : Nat → Nat),
    (∃ j, i ≤ j ∧ j < i + n ∧ 2 ^ j < firstOf cnt j + cnt j ∧ cnt j ≠ 0 ∧
      rows cnt n i (firstOf cnt i) (fsymOf cnt i) (h, next) = .throws "bad codelengths") ∨
    ((∀ j, i ≤ j → j < i + n → cnt j ≠ 0 → firstOf cnt j + cnt j ≤ 2 ^ j) ∧
      ∃ h' next', rows cnt n i (firstOf cnt i) (fsymOf cnt i) (h, next) = .ok (h', next') ∧
        h'.fast = h.fast ∧ h'.size = h.size ∧ h'.value = h.value ∧
        (∀ j, j < i → h'.firstcode j = h.firstcode j ∧ h'.firstsymbol j = h.firstsymbol j ∧ h'.maxcode j = h.maxcode j ∧ next' j = next j) ∧
        ∀ j, i ≤ j → j < i + n → h'.firstcode j = firstOf cnt j % 65536 ∧ h'.firstsymbol j = fsymOf cnt j % 65536 ∧
          h'.maxcode j = (firstOf cnt j + cnt j) <<< (16 - j) ∧ next' j = firstOf cnt j) := by
  intro n
  induction n with
  | zero =>
    intro i h next
    exact .inr ⟨fun j h1 h2 => absurd h2 (by omega), h, next, rfl, rfl, rfl, rfl, fun j _ => ⟨rfl, rfl, rfl, rfl⟩, fun j h1 h2 => absurd h2 (by omega)⟩
  | succ n ih =>
    intro i h next
    rw [rows]
    by_cases hb : cnt i ≠ 0 ∧ 2 ^ i ≤ firstOf cnt i + cnt i - 1
    · rw [if_pos hb]
      exact .inl ⟨i, Nat.le_refl _, by omega, by omega, hb.1, rfl⟩
    · rw [if_neg hb]
      have e1 : (firstOf cnt i + cnt i) <<< 1 = firstOf cnt (i + 1) := by rw [firstOf, Nat.shiftLeft_eq]; omega
      have e2 : fsymOf cnt i + cnt i = fsymOf cnt (i + 1) := rfl
      rw [e1, e2]
      rcases ih (i + 1) { h with
          firstcode := set h.firstcode i (firstOf cnt i % 65536)
          firstsymbol := set h.firstsymbol i (fsymOf cnt i % 65536)
          maxcode := set h.maxcode i ((firstOf cnt i + cnt i) <<< (16 - i)) } (set next i (firstOf cnt i)) with
        ⟨j, j1, j2, j3, j4, j5⟩ | ⟨h1, h', next', h2, h3, h4, h5, h6, h7⟩
      · exact .inl ⟨j, by omega, by omega, j3, j4, j5⟩
      · refine .inr ⟨?_, h', next', h2, h3, h4, h5, ?_, ?_⟩
        · intro j j1 j2 j3
          rcases Nat.lt_or_eq_of_le j1 with j4 | j4
          · exact h1 j (by omega) (by omega) j3
          · subst j4
            have : ¬ 2 ^ i ≤ firstOf cnt i + cnt i - 1 := fun hh => hb ⟨j3, hh⟩
            omega
        · intro j hj
          have := h6 j (by omega)
          have hne : j ≠ i := by omega
          simpa [set, hne] using this
        · intro j j1 j2
          rcases Nat.lt_or_eq_of_le j1 with j4 | j4
          · exact h7 j (by omega) (by omega)
          · subst j4
            have := h6 i (by omega)
            simpa [set] using this

/-- the checks pass exactly for lengths that fit -/
theorem checks_iff (cnt : Nat → Nat) (h0 : cnt 0 = 0) (n : Nat) :
    (∀ j, 1 ≤ j → j < n + 1 → cnt j ≠ 0 → firstOf cnt j + cnt j ≤ 2 ^ j) ↔ ∀ s, s ≤ n → firstOf cnt s + cnt s ≤ 2 ^ s := by
  constructor
  · intro h s
    induction s with
    | zero => intro _; simp [firstOf, h0]
    | succ s ih =>
      intro hs
      by_cases hc : cnt (s + 1) = 0
      · have := ih (by omega)
        rw [firstOf, hc, Nat.pow_succ]
        omega
      · exact h (s + 1) (by omega) (by omega) hc
  · intro h j _ hj _
    exact h j (by omega)

/-! ## The fast table -/

theorem fillFast_spec (v s : Nat) : ∀ (n j : Nat) (f : Nat → Nat) (x : Nat), 512 ≤ j + n * 2 ^ s →
    fillFast v (1 <<< s) n j f x = if j ≤ x ∧ x < 512 ∧ x % 2 ^ s = j % 2 ^ s then v else f x := by
  intro n
  induction n with
  | zero =>
    intro j f x h
    rw [fillFast, if_neg (by omega)]
  | succ n ih =>
    intro j f x h
    rw [fillFast]
    have hp : 0 < 2 ^ s := Nat.two_pow_pos s
    split
    · rw [ih _ _ _ (by rw [Nat.one_shiftLeft]; rw [Nat.succ_mul] at h; omega), Nat.one_shiftLeft, Nat.add_mod_right]
      by_cases hx : x = j
      · subst hx
        rw [if_neg (by omega)]
        simp [set]
        omega
      · have hs : set f j v x = f x := by simp [set, hx]
        rw [hs]
        by_cases hc : j ≤ x ∧ x < 512 ∧ x % 2 ^ s = j % 2 ^ s
        · rw [if_pos hc, if_pos]
          refine ⟨?_, hc.2⟩
          have h1 : (x - j) % 2 ^ s = 0 := Nat.sub_mod_eq_zero_of_mod_eq hc.2.2
          have h2 : 2 ^ s ≤ x - j := Nat.le_of_dvd (by omega) (Nat.dvd_of_mod_eq_zero h1)
          omega
        · rw [if_neg hc, if_neg]
          omega
    · rw [if_neg (by omega)]

/-- an entry of the fast table -/
def entry (s i : Nat) : Nat := ((s <<< 9) ||| i) % 65536

theorem entry_eq {s i : Nat} (hs : s ≤ 15) (hi : i < 512) : entry s i = s * 512 + i := by
  have h1 : (s <<< 9) ||| i = s * 512 + i := by
    rw [Nat.shiftLeft_eq, Nat.mul_comm s, ← Nat.two_pow_add_eq_or_of_lt (by omega : i < 2 ^ 9)]
  rw [entry, h1, Nat.mod_eq_of_lt (by omega)]

theorem entry_split {s i : Nat} (hs : s ≤ 15) (hi : i < 512) : entry s i >>> 9 = s ∧ entry s i &&& 511 = i := by
  rw [entry_eq hs hi]
  refine ⟨by rw [Nat.shiftRight_eq_div_pow]; omega, ?_⟩
  have : 511 = 2 ^ 9 - 1 := by decide
  rw [this, Nat.and_two_pow_sub_one_eq_mod]
  omega

/-! ## The third loop -/

/-- what the tables hold after the first `i` symbols -/
structure Held (ls : List Nat) (i : Nat) (h : Huff) (next : Nat → Nat) : Prop where
  rows : ∀ s, 1 ≤ s → s ≤ 15 → h.firstcode s = firstOf (cntOf ls) s ∧ h.firstsymbol s = fsymOf (cntOf ls) s ∧
    h.maxcode s = (firstOf (cntOf ls) s + cntOf ls s) * 2 ^ (16 - s) ∧ next s = firstOf (cntOf ls) s + (ls.take i).count s
  last : h.maxcode 16 = 65536
  slots : ∀ j, j < i → 0 < lenOf ls j → h.size (fsymOf (cntOf ls) (lenOf ls j) + rankOf ls j) = some (lenOf ls j) ∧
    h.value (fsymOf (cntOf ls) (lenOf ls j) + rankOf ls j) = some j
  fast : ∀ inp p j, j < i → SymAt inp ls p j → lenOf ls j ≤ 9 → h.fast (lsb inp p 9) = entry (lenOf ls j) j
  fast' : ∀ inp p, h.fast (lsb inp p 9) ≠ 0 → ∃ j, j < i ∧ SymAt inp ls p j ∧ lenOf ls j ≤ 9

theorem assign_ok {ls : List Nat} (hf : Fits ls) (hn : ls.length ≤ 288) : ∀ (suf : List Nat) (i : Nat) (h : Huff) (next : Nat → Nat),
    ls.drop i = suf → i ≤ ls.length → Held ls i h next → ∃ h' next', assign suf i h next = .ok h' ∧ Held ls ls.length h' next' := by
  intro suf
  induction suf with
  | nil =>
    intro i h next hd hi hh
    have : i = ls.length := by have := List.drop_eq_nil_iff.mp hd; omega
    subst this
    exact ⟨h, next, rfl, hh⟩
  | cons s suf ih =>
    intro i h next hd hi hh
    have hlt : i < ls.length := by
      rcases Nat.lt_or_ge i ls.length with h1 | h1
      · exact h1
      · rw [List.drop_eq_nil_iff.mpr h1] at hd
        cases hd
    rw [List.drop_eq_getElem_cons hlt] at hd
    injection hd with e1 e2
    have hl : lenOf ls i = s := by rw [lenOf, List.getElem?_eq_getElem hlt]; exact e1
    have htk : ls.take (i + 1) = ls.take i ++ [s] := by rw [List.take_succ_eq_append_getElem hlt, e1]
    rw [assign]
    by_cases h0 : s = 0
    · rw [if_pos h0]
      refine ih (i + 1) h next e2 (by omega) ⟨?_, hh.last, ?_, ?_, ?_⟩
      · intro t t1 t2
        obtain ⟨a1, a2, a3, a4⟩ := hh.rows t t1 t2
        refine ⟨a1, a2, a3, ?_⟩
        rw [a4, htk, List.count_append, List.count_singleton]
        have : (s == t) = false := by simp; omega
        simp [this]
      · intro j hj hp
        rcases Nat.lt_or_eq_of_le (Nat.le_of_lt_succ hj) with h1 | h1
        · exact hh.slots j h1 hp
        · subst h1; omega
      · intro inp p j hj hs
        rcases Nat.lt_or_eq_of_le (Nat.le_of_lt_succ hj) with h1 | h1
        · exact hh.fast inp p j h1 hs
        · subst h1; have := hs.1; omega
      · intro inp p hne
        obtain ⟨j, j1, j2⟩ := hh.fast' inp p hne
        exact ⟨j, by omega, j2⟩
    · rw [if_neg h0]
      have hsp : 0 < s := by omega
      have hs15 : s ≤ 15 := by
        apply hf.1
        rw [← e1]
        exact List.getElem_mem hlt
      obtain ⟨a1, a2, a3, a4⟩ := hh.rows s hsp hs15
      have hrk : rankOf ls i = (ls.take i).count s := by rw [rankOf, hl]
      have hc : next s + h.firstsymbol s - h.firstcode s = fsymOf (cntOf ls) s + rankOf ls i := by
        rw [a1, a2, a4, hrk]; omega
      have hpos : 0 < lenOf ls i := by omega
      have hslot := slot_lt hpos
      rw [hl] at hslot
      have hcode : next s = codeOf ls i := by
        rw [codeOf_eq hpos, hl, a4, hrk]
      have hcl : codeOf ls i < 2 ^ s := by
        have h1 := (code_bounds hpos).2
        have h2 := ((fits_iff ls).mp hf).2 s hs15
        rw [hl] at h1
        omega
      simp only [hc]
      rw [if_neg (by omega)]
      have hfast : ∀ inp p, (if s ≤ 9 then fillFast (((s <<< 9) ||| i) % 65536) (1 <<< s) 512 (bitReverse (next s) s) h.fast
          else h.fast) (lsb inp p 9) = if s ≤ 9 ∧ SymAt inp ls p i then entry s i else h.fast (lsb inp p 9) := by
        intro inp p
        by_cases h9 : s ≤ 9
        · have hbr := bitReverse_lt (next s) s (by omega)
          rw [if_pos h9, fillFast_spec _ _ _ _ _ _ (by
            have : 1 ≤ 2 ^ s := Nat.two_pow_pos s
            have : 512 * 1 ≤ 512 * 2 ^ s := Nat.mul_le_mul_left _ this
            omega)]
          have hm : lsb inp p 9 % 2 ^ s = lsb inp p s := by
            have : 9 = s + (9 - s) := by omega
            rw [this, lsb_mod]
          rw [hm, Nat.mod_eq_of_lt hbr, hcode]
          have hle : lsb inp p s ≤ lsb inp p 9 := by rw [← hm]; exact Nat.mod_le _ _
          have h512 : lsb inp p 9 < 512 := lsb_lt p 9
          have hiff : (bitReverse (codeOf ls i) s ≤ lsb inp p 9 ∧ lsb inp p 9 < 512 ∧ lsb inp p s = bitReverse (codeOf ls i) s) ↔
              s ≤ 9 ∧ SymAt inp ls p i := by
            rw [SymAt, hl, ← bitReverse_lsb (by omega : s ≤ 16) hcl]
            constructor
            · rintro ⟨_, _, q⟩; exact ⟨h9, hsp, q.symm⟩
            · rintro ⟨_, _, q⟩; exact ⟨by rw [q]; exact hle, h512, q.symm⟩
          simp only [hiff]
          rfl
        · rw [if_neg h9, if_neg (by omega)]
      refine ih (i + 1) _ _ e2 (by omega) ⟨?_, hh.last, ?_, ?_, ?_⟩
      · intro t t1 t2
        obtain ⟨b1, b2, b3, b4⟩ := hh.rows t t1 t2
        refine ⟨b1, b2, b3, ?_⟩
        rw [htk, List.count_append, List.count_singleton]
        by_cases hts : t = s
        · subst hts
          simp [set, a4]
          omega
        · have : (s == t) = false := by simp; omega
          simp [set, hts, this, b4]
      · intro j hj hp
        simp only
        by_cases hji : j = i
        · subst hji
          rw [hl]
          simp only [set, if_true]
          rw [Nat.mod_eq_of_lt (by omega), Nat.mod_eq_of_lt (by omega)]
          exact ⟨rfl, rfl⟩
        · have hne : fsymOf (cntOf ls) (lenOf ls j) + rankOf ls j ≠ fsymOf (cntOf ls) s + rankOf ls i := by
            intro heq
            rw [← hl] at heq
            exact hji (slot_inj hp hpos heq)
          simp only [set, if_neg hne]
          exact hh.slots j (by omega) hp
      · intro inp p j hj hs h9
        simp only
        rw [hfast]
        by_cases hji : j = i
        · subst hji
          rw [if_pos ⟨by omega, hs⟩, hl]
        · rw [if_neg]
          · exact hh.fast inp p j (by omega) hs h9
          · rintro ⟨_, hsi⟩
            exact hji (sym_unique hs hsi)
      · intro inp p hne
        simp only at hne
        rw [hfast] at hne
        by_cases hc : s ≤ 9 ∧ SymAt inp ls p i
        · exact ⟨i, by omega, hc.2, by omega⟩
        · rw [if_neg hc] at hne
          obtain ⟨j, j1, j2⟩ := hh.fast' inp p hne
          exact ⟨j, by omega, j2⟩

/-- tables for these lengths -/
def Built (ls : List Nat) (h : Huff) : Prop := ∃ next, Held ls ls.length h next

theorem build_ok {ls : List Nat} (hn : ls.length ≤ 288) (hf : Fits ls) : ∃ h, build ls = .ok h ∧ Built ls h := by
  obtain ⟨h15, hfit⟩ := (fits_iff ls).mp hf
  rw [build, if_neg (by simpa using h15)]
  have hcnt : counts ls = cntOf ls := rfl
  rw [hcnt, if_neg (by
    simp only [List.any_eq_true, List.mem_range, Bool.and_eq_true, decide_eq_true_eq, not_exists, not_and, Nat.not_lt]
    intro x hx _
    have := hfit x (by omega)
    omega)]
  rcases rows_spec (cntOf ls) 15 1 {} (fun _ => 0) with ⟨j, j1, j2, j3, _, _⟩ | ⟨_, h', next', h2, h3, h4, h5, h6, h7⟩
  · have := hfit j (by omega)
    omega
  · have e1 : firstOf (cntOf ls) 1 = 0 := by simp [firstOf, cntOf]
    have e2 : fsymOf (cntOf ls) 1 = 0 := by simp [fsymOf, cntOf]
    rw [e1, e2] at h2
    rw [h2, Outcome.bind_ok]
    simp only
    obtain ⟨h'', next'', a1, a2⟩ := assign_ok hf hn ls 0 { h' with maxcode := set h'.maxcode 16 0x10000 } next' rfl (by omega)
      ⟨by
        intro s s1 s2
        obtain ⟨b1, b2, b3, b4⟩ := h7 s s1 (by omega)
        have hne : s ≠ 16 := by omega
        have hb : firstOf (cntOf ls) s + cntOf ls s ≤ 2 ^ 15 :=
          Nat.le_trans (hfit s s2) (Nat.pow_le_pow_right (by decide) s2)
        have hs := fsym_le ls s
        simp only [set, hne, if_false]
        rw [b1, b2, b3, b4, Nat.mod_eq_of_lt (by omega), Nat.mod_eq_of_lt (by omega), Nat.shiftLeft_eq]
        simp,
      by simp [set], by intro j hj; omega, by intro _ _ j hj; omega, by
        intro inp p hne
        simp only at hne
        rw [h3] at hne
        exact absurd rfl hne⟩
    exact ⟨h'', a1, next'', a2⟩

theorem build_throws {ls : List Nat} (h15 : ∀ l ∈ ls, l ≤ 15) (hf : ¬ Fits ls) : ∃ e, build ls = .throws e := by
  rw [build, if_neg (by simpa using h15)]
  have hcnt : counts ls = cntOf ls := rfl
  rw [hcnt]
  split
  · exact ⟨_, rfl⟩
  · rcases rows_spec (cntOf ls) 15 1 {} (fun _ => 0) with ⟨j, j1, j2, j3, _, h⟩ | ⟨h, _⟩
    · have e1 : firstOf (cntOf ls) 1 = 0 := by simp [firstOf, cntOf]
      have e2 : fsymOf (cntOf ls) 1 = 0 := by simp [fsymOf, cntOf]
      rw [e1, e2] at h
      rw [h, Outcome.bind_throws]
      exact ⟨_, rfl⟩
    · exfalso
      apply hf
      rw [fits_iff]
      exact ⟨h15, (checks_iff (cntOf ls) (by simp [cntOf]) 15).mp (fun j j1 j2 => h j j1 (by omega))⟩

/-! ## Decoding -/

theorem findLen_ok {maxcode : Nat → Nat} {k : Nat} : ∀ {n s t : Nat}, (∀ u, s ≤ u → u < t → maxcode u ≤ k) → k < maxcode t → s ≤ t → t < s + n →
    findLen maxcode k n s = .ok t := by
  intro n
  induction n with
  | zero => intro s t _ _ h1 h2; omega
  | succ n ih =>
    intro s t h1 h2 h3 h4
    rw [findLen]
    rcases Nat.lt_or_eq_of_le h3 with h | h
    · have := h1 s (Nat.le_refl _) h
      rw [if_neg (by omega)]
      exact ih (fun u u1 u2 => h1 u (by omega) u2) h2 h (by omega)
    · subst h
      rw [if_pos h2]

theorem find_least (P : Nat → Prop) [DecidablePred P] (n : Nat) :
    (∃ t, 0 < t ∧ t ≤ n ∧ P t ∧ ∀ s, 0 < s → s < t → ¬ P s) ∨ ∀ t, 0 < t → t ≤ n → ¬ P t := by
  induction n with
  | zero => exact .inr fun t h1 h2 => by omega
  | succ n ih =>
    rcases ih with ⟨t, h1, h2, h3⟩ | h
    · exact .inl ⟨t, h1, by omega, h3⟩
    · by_cases hp : P (n + 1)
      · exact .inl ⟨n + 1, by omega, Nat.le_refl _, hp, fun s s1 s2 => h s s1 (by omega)⟩
      · refine .inr fun t h1 h2 => ?_
        rcases Nat.lt_or_eq_of_le h2 with h3 | h3
        · exact h t h1 (by omega)
        · rw [h3]; exact hp

/-- decoding gives the symbol whose code is at the place, and nothing if there is none -/
theorem decode_ok {ls : List Nat} {h : Huff} (hf : Fits ls) (hn : ls.length ≤ 288) (hb : Built ls h) {z : ZBuf} {p : Nat} (hr : Rep inp z p) :
    ∃ r z', decode h z = .ok (r, z') ∧ dst z' = dst z ∧
      match r with
      | some i => SymAt inp ls p i ∧ Rep inp z' (p + lenOf ls i)
      | none => ∀ i, ¬ SymAt inp ls p i := by
  obtain ⟨next, hh⟩ := hb
  obtain ⟨h15, hfit⟩ := (fits_iff ls).mp hf
  have main : ∀ y : ZBuf, Rep inp y p → 16 ≤ y.num → dst y = dst z →
      ∃ r z', (let b := h.fast (y.code &&& 511)
        if b ≠ 0 then Outcome.ok (some (b &&& 511), ({ y with code := y.code >>> (b >>> 9), num := y.num - (b >>> 9) } : ZBuf))
        else slowpath h y) = .ok (r, z') ∧ dst z' = dst z ∧
      match r with
      | some i => SymAt inp ls p i ∧ Rep inp z' (p + lenOf ls i)
      | none => ∀ i, ¬ SymAt inp ls p i := by
    intro y hy hnum hd
    have hidx : y.code &&& 511 = lsb inp p 9 := by
      have : 511 = 2 ^ 9 - 1 := by decide
      rw [this, Nat.and_two_pow_sub_one_eq_mod, hy.2.2.1]
      have : y.num = 9 + (y.num - 9) := by omega
      rw [this, lsb_mod]
    have hk : bitReverse y.code 16 = msb inp p 16 := by
      rw [bitReverse, hy.2.2.1]
      have : y.num = 16 + (y.num - 16) := by omega
      rw [this, reverse_msb]
      simp
    have hmsb : ∀ s, s ≤ 15 → (msb inp p 16 < (firstOf (cntOf ls) s + cntOf ls s) * 2 ^ (16 - s) ↔ msb inp p s < firstOf (cntOf ls) s + cntOf ls s) := by
      intro s hs
      have h1 := msb_div (inp := inp) p s (16 - s)
      have e : s + (16 - s) = 16 := by omega
      rw [e] at h1
      rw [← h1, Nat.div_lt_iff_lt_mul (Nat.two_pow_pos _)]
    simp only
    rw [hidx]
    by_cases hb : h.fast (lsb inp p 9) = 0
    · rw [if_neg (by simpa using hb), slowpath]
      simp only
      rw [hk]
      have hno9 : ∀ i, SymAt inp ls p i → ¬ lenOf ls i ≤ 9 := by
        intro i hi h9
        obtain ⟨hil, _⟩ := lenOf_pos hi.1
        have := hh.fast inp p i hil hi h9
        rw [hb, entry_eq (by omega) (by omega)] at this
        have := hi.1
        omega
      rcases find_least (fun t => msb inp p t < firstOf (cntOf ls) t + cntOf ls t) 15 with ⟨t, t1, t2, t3, t4⟩ | hnone
      · obtain ⟨i, hl, hs⟩ := sym_exists t1 t3 (fun s s1 s2 => Nat.not_lt.mp (t4 s s1 s2))
        have ht10 : 10 ≤ t := by
          have := hno9 i hs
          omega
        obtain ⟨b1, b2, b3, _⟩ := hh.rows t t1 t2
        rw [findLen_ok (t := t) (fun u u1 u2 => by
            obtain ⟨_, _, c3, _⟩ := hh.rows u (by omega) (by omega)
            rw [c3]
            have := t4 u (by omega) u2
            rw [← hmsb u (by omega)] at this
            omega) (by rw [b3]; exact (hmsb t t2).mpr t3) ht10 (by omega), Outcome.bind_ok, if_neg (by omega)]
        have hsh : msb inp p 16 >>> (16 - t) = msb inp p t := by
          rw [Nat.shiftRight_eq_div_pow]
          have := msb_div (inp := inp) p t (16 - t)
          have e : t + (16 - t) = 16 := by omega
          rwa [e] at this
        have hcode := hs.2
        rw [codeOf_eq hs.1, hl] at hcode
        have hidx2 : (msb inp p 16 >>> (16 - t)) + h.firstsymbol t - h.firstcode t = fsymOf (cntOf ls) (lenOf ls i) + rankOf ls i := by
          rw [hsh, b1, b2, hcode, hl]
          omega
        have hslot := slot_lt hs.1
        obtain ⟨hil, _⟩ := lenOf_pos hs.1
        obtain ⟨s1, s2⟩ := hh.slots i hil hs.1
        rw [hidx2, if_neg (by omega), s1, s2, hl]
        simp only [if_true]
        refine ⟨_, _, rfl, hd, hs, ?_⟩
        rw [hl]
        exact rep_shift hy (by omega)
      · rw [findLen_ok (t := 16) (fun u u1 u2 => by
            obtain ⟨_, _, c3, _⟩ := hh.rows u (by omega) (by omega)
            rw [c3]
            have := hnone u (by omega) (by omega)
            rw [← hmsb u (by omega)] at this
            omega) (by rw [hh.last]; exact msb_lt p 16) (by omega) (by omega), Outcome.bind_ok, if_pos rfl]
        refine ⟨none, y, rfl, hd, ?_⟩
        intro i hi
        obtain ⟨hil, he⟩ := lenOf_pos hi.1
        have h1 := (code_bounds hi.1).2
        rw [← hi.2] at h1
        exact hnone (lenOf ls i) hi.1 (by rw [he]; exact h15 _ (List.getElem_mem hil)) h1
    · rw [if_pos hb]
      obtain ⟨j, j1, j2, j3⟩ := hh.fast' inp p hb
      rw [hh.fast inp p j j1 j2 j3]
      obtain ⟨e1, e2⟩ := entry_split (s := lenOf ls j) (i := j) (by omega) (by omega)
      rw [e1, e2]
      exact ⟨some j, _, rfl, hd, j2, rep_shift hy (by omega)⟩
  rw [decode]
  split
  · obtain ⟨y, e1, e2, e3, e4⟩ := fillBits_ok hr (by omega)
    rw [e1, Outcome.bind_ok]
    exact main y e2 (by omega) e4
  · rw [Outcome.bind_ok]
    exact main z hr (by omega) rfl

end Verif.Inflate
