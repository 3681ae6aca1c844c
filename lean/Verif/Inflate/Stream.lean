import Verif.Inflate.Blocks

/-!
# Lemmas: stored blocks, streams
-/

namespace Verif.Inflate

variable {inp : List UInt8}

/-! ## Stored blocks -/

/-- bytes of the stream from a place on -/
def bytesAt (inp : List UInt8) : Nat → Nat → List UInt8
  | _, 0 => []
  | o, n + 1 => inp[o]?.getD 0 :: bytesAt inp (o + 1) n

theorem bytesAt_add : ∀ (m n o : Nat), bytesAt inp o (m + n) = bytesAt inp o m ++ bytesAt inp (o + m) n := by
  intro m
  induction m with
  | zero => intro n o; simp [bytesAt]
  | succ m ih =>
    intro n o
    rw [show m + 1 + n = m + n + 1 by omega, bytesAt, bytesAt, ih, show o + 1 + m = o + (m + 1) by omega]
    rfl

theorem bytesAt_length : ∀ (n o : Nat), (bytesAt inp o n).length = n := by
  intro n
  induction n with
  | zero => intro o; rfl
  | succ n ih => intro o; rw [bytesAt, List.length_cons, ih]

theorem drain_ok : ∀ (k n : Nat) {hd : List UInt8} {z : ZBuf} {o : Nat}, z.num = 8 * k → k ≤ n → Rep inp z (8 * o) →
    ∃ z', drain n hd z = .ok (hd ++ bytesAt inp o k, z') ∧ Rep inp z' (8 * (o + k)) ∧ z'.num = 0 ∧ dst z' = dst z := by
  intro k
  induction k with
  | zero =>
    intro n hd z o hz _ hr
    refine ⟨z, ?_, hr, hz, rfl⟩
    rw [drain.eq_def]
    simp only
    rw [if_pos (by omega)]
    simp [bytesAt]
  | succ k ih =>
    intro n hd z o hz hn hr
    obtain ⟨n, rfl⟩ : ∃ m, n = m + 1 := ⟨n - 1, by omega⟩
    have hb : UInt8.ofNat (z.code &&& 255) = inp[o]?.getD 0 := by
      rw [hr.2.2.1, show (255 : Nat) = 2 ^ 8 - 1 from rfl, Nat.and_two_pow_sub_one_eq_mod, hz, show 8 * (k + 1) = 8 + 8 * k by omega, lsb_mod, lsb_byte]
      exact UInt8.ofNat_toNat
    obtain ⟨z', e1, e2, e3, e4⟩ := ih n (hd := hd ++ [inp[o]?.getD 0]) (z := { z with code := z.code >>> 8, num := z.num - 8 }) (o := o + 1)
      (by simp only; omega) (by omega) (by have := rep_shift (n := 8) hr (by omega); rw [show 8 * (o + 1) = 8 * o + 8 by omega]; exact this)
    refine ⟨z', ?_, by rw [show o + (k + 1) = o + 1 + k by omega]; exact e2, e3, e4⟩
    rw [drain.eq_def]
    simp only
    rw [if_neg (by omega), if_neg (by omega), hb, e1, bytesAt]
    simp

theorem fillHeader_ok : ∀ (n : Nat) {hd : List UInt8} {z : ZBuf} {o : Nat}, z.num = 0 → Rep inp z (8 * o) →
    ∃ z', fillHeader n hd z = (hd ++ bytesAt inp o n, z') ∧ Rep inp z' (8 * (o + n)) ∧ z'.num = 0 ∧ dst z' = dst z := by
  intro n
  induction n with
  | zero => intro hd z o hz hr; exact ⟨z, by simp [fillHeader, bytesAt], hr, hz, rfl⟩
  | succ n ih =>
    intro hd z o hz hr
    have hrest : z.rest = inp.drop o := by
      have := hr.2.1
      rw [hz, show (8 * o + 0) / 8 = o by omega] at this
      exact this
    have hcode : z.code = 0 := by have := hr.2.2.1; rw [hz] at this; exact this
    have hg : (get8 z).1 = inp[o]?.getD 0 ∧ Rep inp (get8 z).2 (8 * (o + 1)) ∧ (get8 z).2.num = 0 ∧ dst (get8 z).2 = dst z := by
      rw [get8]
      cases hd : z.rest with
      | nil =>
        rw [hrest, List.drop_eq_nil_iff] at hd
        refine ⟨by simp [List.getElem?_eq_none hd], ⟨by simp only; omega, ?_, by simp only; rw [hz, hcode]; rfl, by simp only; omega⟩, hz, rfl⟩
        simp only
        rw [hz, show (8 * (o + 1) + 0) / 8 = o + 1 by omega, hrest, List.drop_eq_nil_of_le hd, List.drop_eq_nil_of_le (by omega)]
      | cons b r =>
        rw [hrest] at hd
        have hlt : o < inp.length := by
          by_contra h
          rw [List.drop_eq_nil_of_le (by omega)] at hd
          cases hd
        rw [List.drop_eq_getElem_cons hlt] at hd
        injection hd with h1 h2
        refine ⟨by simp [List.getElem?_eq_getElem hlt, h1], ⟨by simp only; omega, ?_, by simp only; rw [hz, hcode]; rfl, by simp only; omega⟩, hz, rfl⟩
        simp only
        rw [hz, show (8 * (o + 1) + 0) / 8 = o + 1 by omega, h2]
    obtain ⟨g1, g2, g3, g4⟩ := hg
    obtain ⟨z', e1, e2, e3, e4⟩ := ih (hd := hd ++ [inp[o]?.getD 0]) g3 g2
    refine ⟨z', ?_, by rw [show o + (n + 1) = o + 1 + n by omega]; exact e2, e3, e4.trans g4⟩
    rw [fillHeader, g1, e1, bytesAt]
    simp

theorem xor_ffff {n : Nat} (h : n < 65536) : n ^^^ 0xffff = 65535 - n := by
  have := BitVec.xor_allOnes (x := BitVec.ofNat 16 n)
  have h2 := congrArg BitVec.toNat this
  rw [BitVec.toNat_xor, BitVec.toNat_not, BitVec.toNat_allOnes, BitVec.toNat_ofNat, Nat.mod_eq_of_lt h] at h2
  simpa using h2

theorem lsb_word (o : Nat) : lsb inp (8 * o) 16 = (inp[o + 1]?.getD 0).toNat * 256 + (inp[o]?.getD 0).toNat := by
  rw [show (16 : Nat) = 8 + 8 from rfl, lsb_add, lsb_byte, show 8 * o + 8 = 8 * (o + 1) by omega, lsb_byte]
  omega

theorem stored_det {lax : Bool} {p q : Nat} {out out' : List UInt8} (h0 : lsb inp p 2 = 0) (h : Block lax inp p out q out') {o : Nat}
    (h1 : p + 2 ≤ 8 * o) (h2 : 8 * o < p + 10) : lsb inp (8 * o + 16) 16 = 65535 - lsb inp (8 * o) 16 ∧ o + 4 + lsb inp (8 * o) 16 ≤ inp.length ∧
      q = 8 * (o + 4 + lsb inp (8 * o) 16) ∧ out' = out ++ (inp.drop (o + 4)).take (lsb inp (8 * o) 16) := by
  cases h with
  | @stored o' len a1 a2 a3 a4 a5 a6 =>
    obtain rfl : o = o' := by omega
    subst a4
    exact ⟨a5, a6, rfl, rfl⟩
  | data ho _ =>
    cases ho with
    | fixed h => omega
    | dynamic h => omega

theorem storedBlock_cases {z : ZBuf} {p : Nat} (h0 : lsb inp p 2 = 0) (hr : Rep inp z (p + 2)) (hnum : z.num ≤ 31)
    (hcap : z.exp = true → 1 ≤ z.cap ∧ z.cap < 2 ^ 31) :
    (∃ z' q, storedBlock z = .ok z' ∧ Block true inp p z.out q z'.out ∧ Rep inp z' q ∧ Good z z') ∨
    (∃ e, storedBlock z = .throws e ∧ ∀ q out', Block true inp p z.out q out' → ∀ m, Can z m → ¬ out'.length ≤ m) ∨
    (storedBlock z = .ub ∧ z.exp = true ∧ ∃ q out', Block true inp p z.out q out' ∧ 2 ^ 30 < out'.length) := by
  rw [storedBlock]
  have h7 : z.num &&& 7 = z.num % 8 := Nat.and_two_pow_sub_one_eq_mod z.num 3
  rw [h7]
  -- to the next byte
  obtain ⟨y, o, y1, y2, y3, y4, y5, y6⟩ : ∃ y o, (if z.num % 8 ≠ 0 then receive (z.num % 8) z >>= fun r => .ok r.2 else .ok z) = (.ok y : Outcome ZBuf) ∧
      p + 2 ≤ 8 * o ∧ 8 * o < p + 10 ∧ Rep inp y (8 * o) ∧ y.num ≤ 31 ∧ dst y = dst z := by
    have hm := hr.1
    split
    · obtain ⟨y, e1, e2, e3, e4⟩ := receive_ok (n := z.num % 8) hr (by omega)
      rw [e1, Outcome.bind_ok]
      refine ⟨y, (p + 2 + z.num % 8) / 8, rfl, by omega, by omega, ?_, by omega, e4⟩
      rw [show 8 * ((p + 2 + z.num % 8) / 8) = p + 2 + z.num % 8 by omega]
      exact e2
    · refine ⟨z, (p + 2) / 8, rfl, by omega, by omega, ?_, hnum, rfl⟩
      rw [show 8 * ((p + 2) / 8) = p + 2 by omega]
      exact hr
  rw [y1, Outcome.bind_ok]
  have hm := y4.1
  obtain ⟨k, hk⟩ : ∃ k, y.num = 8 * k := ⟨y.num / 8, by omega⟩
  obtain ⟨w, w1, w2, w3, w4⟩ := drain_ok k 4 (hd := []) hk (by omega) y4
  rw [w1, Outcome.bind_ok]
  simp only [List.nil_append, bytesAt_length]
  obtain ⟨v, v1, v2, v3, v4⟩ := fillHeader_ok (4 - k) (hd := bytesAt inp o k) w3 w2
  rw [← bytesAt_add, show k + (4 - k) = 4 by omega] at v1
  rw [show o + k + (4 - k) = o + 4 by omega] at v2
  rw [v1]
  simp only [bytesAt]
  have hl := lsb_word (inp := inp) o
  have hn := lsb_word (inp := inp) (o + 2)
  rw [show 8 * (o + 2) = 8 * o + 16 by omega] at hn
  rw [show o + 1 + 1 = o + 2 from rfl, show o + 2 + 1 = o + 3 from rfl] at *
  rw [← hl, ← hn]
  have hlt := lsb_lt (inp := inp) (8 * o) 16
  have hlt2 := lsb_lt (inp := inp) (8 * o + 16) 16
  rw [xor_ffff hlt]
  split
  · rename_i hne
    exact .inr (.inl ⟨_, rfl, fun q out' hb => absurd (stored_det h0 hb y2 y3).1 hne⟩)
  · rename_i hne
    have heq : lsb inp (8 * o + 16) 16 = 65535 - lsb inp (8 * o) 16 := by simpa using hne
    have hrest : v.rest = inp.drop (o + 4) := by
      have := v2.2.1
      rw [v3, show (8 * (o + 4) + 0) / 8 = o + 4 by omega] at this
      exact this
    have hdst : dst v = dst z := v4.trans (w4.trans y6)
    simp only [dst, Prod.mk.injEq] at hdst
    obtain ⟨d1, d2, d3, d4⟩ := hdst
    have hlen : v.rest.length < lsb inp (8 * o) 16 ↔ ¬ o + 4 + lsb inp (8 * o) 16 ≤ inp.length := by
      rw [hrest, List.length_drop]
      constructor
      · intro h; omega
      · intro h
        by_cases hin : o + 4 ≤ inp.length
        · omega
        · have : inp[o + 2 + 1]?.getD 0 = 0 := by rw [List.getElem?_eq_none (by omega)]; rfl
          rw [this] at hn
          have := (inp[o + 2]?.getD 0).toNat_lt
          simp only [UInt8.toNat_zero] at hn
          omega
    split
    · rename_i hs
      exact .inr (.inl ⟨_, rfl, fun q out' hb => absurd (stored_det h0 hb y2 y3).2.1 (hlen.mp hs)⟩)
    · rename_i hs
      have hfit : o + 4 + lsb inp (8 * o) 16 ≤ inp.length := by
        by_contra h
        exact hs (hlen.mpr h)
      have hblock : Block true inp p z.out _ _ := Block.stored h0 y2 y3 rfl heq hfit
      have htl : ((inp.drop (o + 4)).take (lsb inp (8 * o) 16)).length = lsb inp (8 * o) 16 := by
        rw [List.length_take, List.length_drop]; omega
      have hcan : ∀ m, Can z m → Can v m := by
        intro m h
        unfold Can at h ⊢
        rw [d2, d3, d4]; exact h
      rcases reserve_cases (n := lsb inp (8 * o) 16) (z := v) (by rw [d2, d3]; exact hcap) with ⟨c, c1, c2, c3, c4, c5⟩ | ⟨e, he, _⟩ | ⟨g1, g2, g3⟩
      · rw [c1, Outcome.bind_ok]
        refine .inl ⟨_, 8 * (o + 4 + lsb inp (8 * o) 16), rfl, ?_, ?_, ?_⟩
        · simp only
          rw [hrest, d1]
          exact hblock
        · refine ⟨by simp only; omega, ?_, ?_, by simp only; omega⟩
          · simp only
            rw [v3, show (8 * (o + 4 + lsb inp (8 * o) 16) + 0) / 8 = o + 4 + lsb inp (8 * o) 16 by omega, hrest, List.drop_drop]
          · simp only
            have := v2.2.2.1
            rw [v3] at this ⊢
            rw [this]; rfl
        · rw [d3] at c4 c5
          rw [d1] at c2
          exact {
            exp := d3
            room := d4
            le := by simp only; rw [d1, List.length_append]; omega
            cap := fun h => by simp only; rw [c4 h, d2]
            bound := c5
            fits := fun _ => by simp only; rw [d1, hrest, List.length_append, htl]; exact c2
            can := fun m hm hle => by
              simp only at hle
              rw [d1, hrest, List.length_append, htl] at hle
              obtain ⟨c', r1, r2⟩ := reserve_can (n := lsb inp (8 * o) 16) (hcan m hm) (by rw [d1]; exact hle)
              rw [c1] at r1
              have : c = c' := by
                have := congrArg (fun o => match o with | Outcome.ok y => y.cap | _ => 0) r1
                simpa using this
              subst this
              exact r2 }
      · rw [he, Outcome.bind_throws]
        refine .inr (.inl ⟨e, rfl, fun q out' hb m hm hle => ?_⟩)
        obtain ⟨_, _, _, rfl⟩ := stored_det h0 hb y2 y3
        rw [List.length_append, htl] at hle
        obtain ⟨c', r1, _⟩ := reserve_can (n := lsb inp (8 * o) 16) (hcan m hm) (by rw [d1]; exact hle)
        rw [he] at r1
        cases r1
      · rw [g1, Outcome.bind_ub]
        refine .inr (.inr ⟨rfl, by rw [← d3]; exact g2, _, _, hblock, ?_⟩)
        rw [List.length_append, htl, ← d1]
        exact g3

/-! ## Blocks -/

theorem opens_det {p s s' : Nat} {lit lit' dist dist' : List Nat} (h : Opens inp p lit dist s) (h' : Opens inp p lit' dist' s') :
    lit = lit' ∧ dist = dist' ∧ s = s' := by
  cases h with
  | fixed a =>
    cases h' with
    | fixed => exact ⟨rfl, rfl, rfl⟩
    | dynamic b => omega
  | dynamic a a1 a2 =>
    cases h' with
    | fixed b => omega
    | dynamic b b1 b2 =>
      obtain ⟨rfl, rfl⟩ := lens_det a2 b2
      exact ⟨rfl, rfl, rfl⟩

theorem opens_type {p s : Nat} {lit dist : List Nat} (h : Opens inp p lit dist s) : lsb inp p 2 = 1 ∨ lsb inp p 2 = 2 := by
  cases h with
  | fixed a => exact .inl a
  | dynamic a => exact .inr a

theorem block_length {lax : Bool} {p q : Nat} {out out' : List UInt8} (h : Block lax inp p out q out') : out.length ≤ out'.length := by
  cases h with
  | stored => rw [List.length_append]; omega
  | data _ h => exact data_length h

theorem block_lax {lax : Bool} {p q : Nat} {out out' : List UInt8} (h : Block lax inp p out q out') : Block true inp p out q out' := by
  cases h with
  | stored a1 a2 a3 a4 a5 a6 => exact .stored a1 a2 a3 a4 a5 a6
  | data a b => exact .data a (data_lax b)

theorem block_det {lax lax' : Bool} {p q q' : Nat} {out o o' : List UInt8} (h : Block lax inp p out q o) (h' : Block lax' inp p out q' o') :
    q = q' ∧ o = o' := by
  cases h with
  | stored a1 a2 a3 a4 a5 a6 =>
    obtain ⟨_, _, e1, e2⟩ := stored_det a1 h' a2 a3
    subst a4
    exact ⟨e1.symm, e2.symm⟩
  | data a1 a2 =>
    cases h' with
    | stored b1 => have := opens_type a1; omega
    | data b1 b2 =>
      obtain ⟨rfl, rfl, rfl⟩ := opens_det a1 b1
      exact data_det a2 b2

theorem blocks_lax {lax : Bool} {p q : Nat} {out out' : List UInt8} (h : Blocks lax inp p out q out') : Blocks true inp p out q out' := by
  induction h with
  | last a b => exact .last a (block_lax b)
  | more a b _ ih => exact .more a (block_lax b) ih

theorem blocks_det {lax lax' : Bool} {p q q' : Nat} {out o o' : List UInt8} (h : Blocks lax inp p out q o) (h' : Blocks lax' inp p out q' o') :
    q = q' ∧ o = o' := by
  induction h with
  | last a b =>
    cases h' with
    | last _ b' => exact block_det b b'
    | more a' => omega
  | more a b _ ih =>
    cases h' with
    | last a' => omega
    | more _ b' c' =>
      obtain ⟨rfl, rfl⟩ := block_det b b'
      exact ih c'

theorem blocks_length {lax : Bool} {p q : Nat} {out out' : List UInt8} (h : Blocks lax inp p out q out') : out.length ≤ out'.length := by
  induction h with
  | last _ b => exact block_length b
  | more _ b _ ih => exact Nat.le_trans (block_length b) ih

theorem default_lit : defaultLength = fixedLit := by decide +kernel

theorem default_dist : defaultDistance = fixedDist := by decide +kernel

theorem fits_lit : Fits fixedLit := by decide +kernel

theorem fits_dist : Fits fixedDist := by decide +kernel

theorem block_cases (n : Nat) {z : ZBuf} {p : Nat} (hr : Rep inp z (p + 2)) (hnum : z.num ≤ 31)
    (hcap : z.exp = true → 1 ≤ z.cap ∧ z.cap < 2 ^ 31) :
    (∃ z' q, block n (lsb inp p 2) z = .ok z' ∧ Block true inp p z.out q z'.out ∧ Rep inp z' q ∧ Good z z') ∨
    (∃ e, block n (lsb inp p 2) z = .throws e ∧ ∀ q out', Block true inp p z.out q out' → ∀ m, Can z m → ¬ out'.length ≤ m) ∨
    (block n (lsb inp p 2) z = .ub ∧
      ((∃ lit dist s k r out', Opens inp p lit dist s ∧ Steps true inp lit dist k s z.out r out' ∧ (Void inp lit dist r ∨ z.exp = true ∧ 2 ^ 30 < out'.length)) ∨
        z.exp = true ∧ ∃ q out', Block true inp p z.out q out' ∧ 2 ^ 30 < out'.length)) ∨
    (block n (lsb inp p 2) z = .diverges ∧ ∃ lit dist s r out', Opens inp p lit dist s ∧ Steps true inp lit dist n s z.out r out' ∧
      (z.out.length ≤ z.cap → out'.length ≤ most z)) := by
  have hlt := lsb_lt (inp := inp) p 2
  -- compressed data
  have main : ∀ {lit dist : List Nat} {hl hd : Huff} {y : ZBuf} {s : Nat}, Opens inp p lit dist s → Codes lit dist hl hd → Rep inp y s → dst y = dst z →
      (∃ z' q, huffmanBlock hl hd n y = .ok z' ∧ Block true inp p z.out q z'.out ∧ Rep inp z' q ∧ Good z z') ∨
      (∃ e, huffmanBlock hl hd n y = .throws e ∧ ∀ q out', Block true inp p z.out q out' → ∀ m, Can z m → ¬ out'.length ≤ m) ∨
      (huffmanBlock hl hd n y = .ub ∧
        ((∃ lit dist s k r out', Opens inp p lit dist s ∧ Steps true inp lit dist k s z.out r out' ∧ (Void inp lit dist r ∨ z.exp = true ∧ 2 ^ 30 < out'.length)) ∨
          z.exp = true ∧ ∃ q out', Block true inp p z.out q out' ∧ 2 ^ 30 < out'.length)) ∨
      (huffmanBlock hl hd n y = .diverges ∧ ∃ lit dist s r out', Opens inp p lit dist s ∧ Steps true inp lit dist n s z.out r out' ∧
        (z.out.length ≤ z.cap → out'.length ≤ most z)) := by
    intro lit dist hl hd y s ho hc hy hdst
    have hg := good_dst hdst hcap
    have hd' := hdst
    simp only [dst, Prod.mk.injEq] at hd'
    obtain ⟨d1, d2, d3, d4⟩ := hd'
    rcases huffman_cases hc n hy (by rw [d2, d3]; exact hcap) with ⟨z', q, e1, e2, e3, e4⟩ | ⟨e, e1, e2⟩ | ⟨e1, k, r, o, e2, e3⟩ | ⟨e1, r, o, e2, e3⟩
    · rw [d1] at e2
      exact .inl ⟨z', q, e1, .data ho e2, e3, hg.trans e4⟩
    · refine .inr (.inl ⟨e, e1, fun q out' hb m hm => ?_⟩)
      cases hb with
      | stored h => have := opens_type ho; omega
      | data h1 h2 =>
        obtain ⟨rfl, rfl, rfl⟩ := opens_det ho h1
        rw [← d1] at h2
        refine e2 _ _ h2 m ?_
        unfold Can at hm ⊢
        rw [d2, d3, d4]; exact hm
    · rw [d1] at e2
      rw [d3] at e3
      exact .inr (.inr (.inl ⟨e1, .inl ⟨lit, dist, s, k, r, o, ho, e2, e3⟩⟩))
    · rw [d1] at e2
      rw [hg.most_eq, d1, d2] at e3
      exact .inr (.inr (.inr ⟨e1, lit, dist, s, r, o, ho, e2, e3⟩))
  rw [block]
  split
  · rename_i h0
    rcases storedBlock_cases h0 hr hnum hcap with h | h | ⟨h1, h2⟩
    · exact .inl h
    · exact .inr (.inl h)
    · exact .inr (.inr (.inl ⟨h1, .inr h2⟩))
  · split
    · rename_i h3
      refine .inr (.inl ⟨_, rfl, fun q out' hb => ?_⟩)
      cases hb with
      | stored h => omega
      | data h => have := opens_type h; omega
    · split
      · rename_i h1
        obtain ⟨hl, a1, a2⟩ := build_ok (ls := fixedLit) (by decide +kernel) fits_lit
        obtain ⟨hd, b1, b2⟩ := build_ok (ls := fixedDist) (by decide +kernel) fits_dist
        rw [default_lit, default_dist, a1, Outcome.bind_ok, b1, Outcome.bind_ok]
        exact main (.fixed h1) ⟨fits_lit, by decide +kernel, a2, fits_dist, by decide +kernel, b2⟩ hr rfl
      · have h2 : lsb inp p 2 = 2 := by omega
        rcases computeCodes_cases h2 hr with ⟨hl, hd, y, lit, dist, s, e1, e2, e3, e4, e5⟩ | ⟨e, e1, e2⟩
        · rw [e1, Outcome.bind_ok]
          exact main e2 e3 e4 e5
        · rw [e1, Outcome.bind_throws]
          refine .inr (.inl ⟨e, rfl, fun q out' hb => ?_⟩)
          cases hb with
          | stored h => omega
          | data h => exact absurd h (e2 _ _ _)

end Verif.Inflate
