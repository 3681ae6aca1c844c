import Verif.Inflate.Stream

/-!
# Lemmas: all blocks of a stream
-/

namespace Verif.Inflate

variable {inp : List UInt8}

/-- blocks none of which is the last -/
inductive Chain (inp : List UInt8) : Nat → Nat → List UInt8 → Nat → List UInt8 → Prop
  | refl {p : Nat} {out : List UInt8} : Chain inp 0 p out p out
  | step {n p : Nat} {out : List UInt8} {q : Nat} {out' : List UInt8} {r : Nat} {out'' : List UInt8} : bitAt inp p = 0 →
      Block true inp (p + 1) out q out' → Chain inp n q out' r out'' → Chain inp (n + 1) p out r out''

/-! ## Places move on -/

theorem step_lt {lax : Bool} {lit dist : List Nat} {p q : Nat} {out o : List UInt8} (h : Step lax inp lit dist p out q o) : p < q := by
  cases h with
  | byte _ a => have := a.1; omega
  | copy _ a => have := a.1; omega
  | nothing _ _ a => have := a.1; omega
  | nowhere _ _ a => have := a.1; omega

theorem steps_le {lax : Bool} {lit dist : List Nat} {n p q : Nat} {out o : List UInt8} (h : Steps lax inp lit dist n p out q o) : p + n ≤ q := by
  induction h with
  | refl => omega
  | step h _ ih => have := step_lt h; omega

theorem lens_le {cl : List Nat} {n p q : Nat} {acc a : List Nat} (h : Lens inp cl n p acc q a) : p ≤ q := by
  induction h with
  | done => omega
  | one _ _ _ _ ih => omega
  | same _ _ _ _ ih => omega
  | zeros _ _ _ ih => omega
  | many _ _ _ ih => omega

theorem opens_le {p s : Nat} {lit dist : List Nat} (h : Opens inp p lit dist s) : p + 2 ≤ s := by
  cases h with
  | fixed => omega
  | dynamic _ _ h => have := lens_le h; omega

theorem block_lt {lax : Bool} {p q : Nat} {out out' : List UInt8} (h : Block lax inp p out q out') : p + 2 < q := by
  cases h with
  | stored => omega
  | data h1 h2 =>
    obtain ⟨n, r, a1, a2, rfl⟩ := h2
    have := opens_le h1
    have := steps_le a1
    have := a2.1
    omega

theorem bit_behind {p : Nat} (h : 8 * inp.length ≤ p) : bitAt inp p = 0 := by
  rw [bitAt, List.getElem?_eq_none (by omega)]
  simp

theorem lsb_behind {p : Nat} (h : 8 * inp.length ≤ p) : ∀ n, lsb inp p n = 0 := by
  intro n
  induction n with
  | zero => rfl
  | succ n ih => rw [lsb, ih, bit_behind (by omega)]; simp

/-- every block begins before the end -/
theorem block_before {lax : Bool} {p q : Nat} {out out' : List UInt8} (h : Block lax inp p out q out') : p < 8 * inp.length := by
  by_contra hp
  have h0 := lsb_behind (inp := inp) (p := p) (by omega) 2
  cases h with
  | stored => omega
  | data h1 _ => have := opens_type h1; omega

theorem chain_bound {n p q : Nat} {out out' : List UInt8} (h : Chain inp n p out q out') : n ≤ 8 * inp.length - p := by
  induction h with
  | refl => omega
  | step _ b _ ih =>
    have := block_before b
    have := block_lt b
    omega

/-! ## All blocks -/

theorem blocks_cases (n : Nat) : ∀ (k : Nat) {z : ZBuf} {p : Nat}, Rep inp z p → (z.exp = true → 1 ≤ z.cap ∧ z.cap < 2 ^ 31) →
    (∃ z' q, blocks n k z = .ok z' ∧ Blocks true inp p z.out q z'.out ∧ Rep inp z' q ∧ Good z z') ∨
    (∃ e, blocks n k z = .throws e ∧ ∀ q out', Blocks true inp p z.out q out' → ∀ m, Can z m → ¬ out'.length ≤ m) ∨
    (blocks n k z = .ub ∧ ((∃ lit dist r out', Meets inp p z.out lit dist r out' ∧ Void inp lit dist r) ∨
      z.exp = true ∧ ∃ out', Writes inp p z.out out' ∧ 2 ^ 30 < out'.length)) ∨
    (blocks n k z = .diverges ∧ ((∃ j p' out₁ lit dist s r out', Chain inp j p z.out p' out₁ ∧ Opens inp (p' + 1) lit dist s ∧
        Steps true inp lit dist n s out₁ r out' ∧ (z.out.length ≤ z.cap → out'.length ≤ most z)) ∨
      ∃ p' out', Chain inp k p z.out p' out')) := by
  intro k
  induction k with
  | zero => intro z p hr hcap; exact .inr (.inr (.inr ⟨rfl, .inr ⟨p, z.out, .refl⟩⟩))
  | succ k ih =>
    intro z p hr hcap
    rw [blocks]
    obtain ⟨y, a1, a2, _, a3⟩ := receive_ok (n := 1) hr (by decide)
    rw [a1, Outcome.bind_ok]
    simp only
    obtain ⟨w, b1, b2, b3, b4⟩ := receive_ok (n := 2) a2 (by decide)
    rw [b1, Outcome.bind_ok]
    simp only
    have hbit : lsb inp p 1 = bitAt inp p := by simp [lsb]
    rw [hbit]
    have hdst : dst w = dst z := b4.trans a3
    have hg := good_dst hdst hcap
    simp only [dst, Prod.mk.injEq] at hdst
    obtain ⟨d1, d2, d3, d4⟩ := hdst
    have hblt := bitAt_lt (inp := inp) p
    have hcan : ∀ m, Can z m → Can w m := by
      intro m h
      unfold Can at h ⊢
      rw [d2, d3, d4]; exact h
    rcases block_cases n (inp := inp) (p := p + 1) (z := w) b2 (by omega) (by rw [d2, d3]; exact hcap) with
      ⟨z', q, e1, e2, e3, e4⟩ | ⟨e, e1, e2⟩ | ⟨e1, e2⟩ | ⟨e1, e2⟩
    · rw [e1, Outcome.bind_ok]
      rw [d1] at e2
      have hg' := hg.trans e4
      split
      · rename_i h0
        rcases ih e3 (fun h => hg'.bound (by rw [← hg'.exp]; exact h)) with ⟨x, r, f1, f2, f3, f4⟩ | ⟨e, f1, f2⟩ | ⟨f1, f2⟩ | ⟨f1, f2⟩
        · exact .inl ⟨x, r, f1, .more h0 e2 f2, f3, hg'.trans f4⟩
        · refine .inr (.inl ⟨e, f1, fun r o hb m hm hle => ?_⟩)
          cases hb with
          | last h1 _ => omega
          | more _ h2 h3 =>
            obtain ⟨rfl, rfl⟩ := block_det h2 e2
            exact f2 r o h3 m (hg'.can m hm (Nat.le_trans (blocks_length h3) hle)) hle
        · refine .inr (.inr (.inl ⟨f1, ?_⟩))
          rcases f2 with ⟨lit, dist, r, o, g1, g2⟩ | ⟨g1, o, g2, g3⟩
          · exact .inl ⟨lit, dist, r, o, .later h0 e2 g1, g2⟩
          · exact .inr ⟨by rw [← hg'.exp]; exact g1, o, .later h0 e2 g2, g3⟩
        · refine .inr (.inr (.inr ⟨f1, ?_⟩))
          rcases f2 with ⟨j, p', o1, lit, dist, s, r, o, g1, g2, g3, g4⟩ | ⟨p', o, g1⟩
          · exact .inl ⟨j + 1, p', o1, lit, dist, s, r, o, .step h0 e2 g1, g2, g3, fun h => by rw [← hg'.most_eq]; exact g4 (hg'.fits h)⟩
          · exact .inr ⟨p', o, .step h0 e2 g1⟩
      · rename_i h0
        exact .inl ⟨z', q, rfl, .last (by omega) e2, e3, hg'⟩
    · rw [e1, Outcome.bind_throws]
      rw [d1] at e2
      refine .inr (.inl ⟨e, rfl, fun r o hb m hm hle => ?_⟩)
      cases hb with
      | last _ h2 => exact e2 r o h2 m (hcan m hm) hle
      | more _ h2 h3 => exact e2 _ _ h2 m (hcan m hm) (Nat.le_trans (blocks_length h3) hle)
    · rw [e1, Outcome.bind_ub]
      rw [d1, d3] at e2
      refine .inr (.inr (.inl ⟨rfl, ?_⟩))
      rcases e2 with ⟨lit, dist, s, j, r, o, g1, g2, g3⟩ | ⟨g1, q, o, g2, g3⟩
      · rcases g3 with g3 | ⟨g3, g4⟩
        · exact .inl ⟨lit, dist, r, o, .here g1 g2, g3⟩
        · exact .inr ⟨g3, o, .within (.here g1 g2), g4⟩
      · exact .inr ⟨g1, o, .behind g2, g3⟩
    · rw [e1, Outcome.bind_diverges]
      obtain ⟨lit, dist, s, r, o, g1, g2, g3⟩ := e2
      rw [d1] at g2
      rw [hg.most_eq, d1, d2] at g3
      exact .inr (.inr (.inr ⟨rfl, .inl ⟨0, p, z.out, lit, dist, s, r, o, .refl, g1, g2, g3⟩⟩))

/-! ## The header -/

/-- where the blocks begin -/
def start (header : Bool) : Nat := if header then 16 else 0

theorem and_32 : ∀ n, n < 256 → (n &&& 32 = 0 ↔ n / 2 ^ 5 % 2 = 0) := by decide +kernel

theorem header_iff (b0 b1 : UInt8) (h0 : b0 = inp[0]?.getD 0) (h1 : b1 = inp[1]?.getD 0) :
    Header inp ↔ (b0.toNat * 256 + b1.toNat) % 31 = 0 ∧ b1.toNat &&& 32 = 0 ∧ b0.toNat &&& 15 = 8 := by
  unfold Header
  have e0 := lsb_byte (inp := inp) 0
  have e1 := lsb_byte (inp := inp) 1
  have e4 := lsb_mod (inp := inp) 0 4 4
  simp only [Nat.mul_zero, Nat.mul_one, Nat.reduceAdd] at e0 e1 e4
  rw [← e4, e0, e1, ← h0, ← h1, show b0.toNat &&& 15 = b0.toNat % 2 ^ 4 from Nat.and_two_pow_sub_one_eq_mod _ 4, and_32 _ b1.toNat_lt]
  have : bitAt inp 13 = b1.toNat / 2 ^ 5 % 2 := by rw [bitAt, h1]
  rw [this]
  constructor
  · rintro ⟨a, b, c⟩; exact ⟨c, b, a⟩
  · rintro ⟨a, b, c⟩; exact ⟨c, b, a⟩

theorem zlibHeader_cases {z : ZBuf} (hr : z.rest = inp) :
    (∃ z', zlibHeader z = .ok z' ∧ Header inp ∧ z'.rest = inp.drop 2 ∧ dst z' = dst z) ∨ (∃ e, zlibHeader z = .throws e ∧ ¬ Header inp) := by
  have hg : ∀ (y : ZBuf) (k : Nat), y.rest = inp.drop k → (get8 y).1 = inp[k]?.getD 0 ∧ (get8 y).2.rest = inp.drop (k + 1) ∧ dst (get8 y).2 = dst y := by
    intro y k hy
    rw [get8]
    cases hd : y.rest with
    | nil =>
      rw [hy, List.drop_eq_nil_iff] at hd
      refine ⟨by simp [List.getElem?_eq_none hd], ?_, rfl⟩
      simp only
      rw [hy, List.drop_eq_nil_of_le hd, List.drop_eq_nil_of_le (by omega)]
    | cons b r =>
      rw [hy] at hd
      have hlt : k < inp.length := by
        by_contra h
        rw [List.drop_eq_nil_of_le (by omega)] at hd
        cases hd
      rw [List.drop_eq_getElem_cons hlt] at hd
      injection hd with h1 h2
      exact ⟨by simp [List.getElem?_eq_getElem hlt, h1], h2.symm, rfl⟩
  obtain ⟨a1, a2, a3⟩ := hg z 0 (by simpa using hr)
  obtain ⟨b1, b2, b3⟩ := hg (get8 z).2 1 a2
  have hi := header_iff (get8 z).1 (get8 (get8 z).2).1 a1 b1
  rw [zlibHeader]
  split
  · rename_i h
    exact .inr ⟨_, rfl, fun hh => h (hi.mp hh).1⟩
  · split
    · rename_i h
      exact .inr ⟨_, rfl, fun hh => h (hi.mp hh).2.1⟩
    · split
      · rename_i h
        exact .inr ⟨_, rfl, fun hh => h (hi.mp hh).2.2⟩
      · rename_i h1 h2 h3
        exact .inl ⟨_, rfl, hi.mpr ⟨by simpa using h1, by simpa using h2, by simpa using h3⟩, b2, b3.trans a3⟩

theorem inflates_eq (lax header : Bool) (inp out : List UInt8) :
    Inflates lax header inp out ↔ (header = true → Header inp) ∧ ∃ q, Blocks lax inp (start header) [] q out := by
  unfold Inflates start
  cases header <;> simp

theorem inflates_det {lax lax' header : Bool} {out out' : List UInt8} (h : Inflates lax header inp out) (h' : Inflates lax' header inp out') :
    out = out' := by
  rw [inflates_eq] at h h'
  obtain ⟨_, q, h⟩ := h
  obtain ⟨_, q', h'⟩ := h'
  exact (blocks_det h h').2

theorem inflates_lax {lax header : Bool} {out : List UInt8} (h : Inflates lax header inp out) : Inflates true header inp out := by
  rw [inflates_eq] at h ⊢
  obtain ⟨h0, q, h⟩ := h
  exact ⟨h0, q, blocks_lax h⟩

/-- what reading a stream comes to -/
theorem parse_cases (n : Nat) (header : Bool) {cap room : Nat} {exp : Bool} (hcap : exp = true → 1 ≤ cap ∧ cap < 2 ^ 31) :
    (∃ z', parseZlib n header { rest := inp, cap := cap, exp := exp, room := room } = .ok z' ∧ Inflates true header inp z'.out ∧
      (exp = false → z'.out.length ≤ cap) ∧ (exp = true → z'.out.length < 2 ^ 31)) ∨
    (∃ e, parseZlib n header { rest := inp, cap := cap, exp := exp, room := room } = .throws e ∧
      ∀ out', Inflates true header inp out' → ∀ m, Can { rest := inp, cap := cap, exp := exp, room := room } m → ¬ out'.length ≤ m) ∨
    (parseZlib n header { rest := inp, cap := cap, exp := exp, room := room } = .ub ∧
      ((∃ lit dist r out', Meets inp (start header) [] lit dist r out' ∧ Void inp lit dist r) ∨
        exp = true ∧ ∃ out', Writes inp (start header) [] out' ∧ 2 ^ 30 < out'.length)) ∨
    (parseZlib n header { rest := inp, cap := cap, exp := exp, room := room } = .diverges ∧
      ((∃ j p' out₁ lit dist s r out', Chain inp j (start header) [] p' out₁ ∧ Opens inp (p' + 1) lit dist s ∧
        Steps true inp lit dist n s out₁ r out' ∧ out'.length ≤ (if exp then 2 ^ 31 else cap)) ∨
      ∃ p' out', Chain inp n (start header) [] p' out')) := by
  have main : ∀ {y : ZBuf}, Rep inp y (start header) → y.out = [] → y.cap = cap → y.exp = exp → y.room = room → (header = true → Header inp) →
    (∃ z', blocks n n y = .ok z' ∧ Inflates true header inp z'.out ∧
      (exp = false → z'.out.length ≤ cap) ∧ (exp = true → z'.out.length < 2 ^ 31)) ∨
    (∃ e, blocks n n y = .throws e ∧
      ∀ out', Inflates true header inp out' → ∀ m, Can { rest := inp, cap := cap, exp := exp, room := room } m → ¬ out'.length ≤ m) ∨
    (blocks n n y = .ub ∧
      ((∃ lit dist r out', Meets inp (start header) [] lit dist r out' ∧ Void inp lit dist r) ∨
        exp = true ∧ ∃ out', Writes inp (start header) [] out' ∧ 2 ^ 30 < out'.length)) ∨
    (blocks n n y = .diverges ∧
      ((∃ j p' out₁ lit dist s r out', Chain inp j (start header) [] p' out₁ ∧ Opens inp (p' + 1) lit dist s ∧
        Steps true inp lit dist n s out₁ r out' ∧ out'.length ≤ (if exp then 2 ^ 31 else cap)) ∨
      ∃ p' out', Chain inp n (start header) [] p' out')) := by
    intro y hy d1 d2 d3 d4 hh
    have hfit : y.out.length ≤ y.cap := by rw [d1]; simp
    rcases blocks_cases n n hy (by rw [d2, d3]; exact hcap) with ⟨z', q, e1, e2, e3, e4⟩ | ⟨e, e1, e2⟩ | ⟨e1, e2⟩ | ⟨e1, e2⟩
    · rw [d1] at e2
      refine .inl ⟨z', e1, (inflates_eq _ _ _ _).mpr ⟨hh, q, e2⟩, fun h => ?_, fun h => ?_⟩
      · have h1 := e4.fits hfit
        have h2 := e4.cap (by rw [d3]; exact h)
        omega
      · have h1 := e4.fits hfit
        have h2 := e4.bound (by rw [d3]; exact h)
        omega
    · refine .inr (.inl ⟨e, e1, fun out' hi m hm => ?_⟩)
      rw [inflates_eq] at hi
      obtain ⟨_, q, hi⟩ := hi
      refine e2 q out' (by rw [d1]; exact hi) m ?_
      unfold Can at hm ⊢
      rw [d2, d3, d4]; exact hm
    · rw [d1, d3] at e2
      exact .inr (.inr (.inl ⟨e1, e2⟩))
    · have hm : most y = if exp then 2 ^ 31 else cap := by rw [most, d2, d3]
      rw [d1] at e2
      rw [d1] at hfit
      refine .inr (.inr (.inr ⟨e1, ?_⟩))
      rcases e2 with ⟨j, p', o1, lit, dist, s, r, o, g1, g2, g3, g4⟩ | h
      · exact .inl ⟨j, p', o1, lit, dist, s, r, o, g1, g2, g3, by rw [← hm]; exact g4 hfit⟩
      · exact .inr h
  rw [parseZlib]
  cases header with
  | false =>
    simp only [Bool.false_eq_true, if_false, Outcome.bind_ok]
    exact main ⟨rfl, by simp [start], rfl, by simp⟩ rfl rfl rfl rfl (by simp)
  | true =>
    simp only [if_true]
    rcases zlibHeader_cases (inp := inp) (z := { rest := inp, cap := cap, exp := exp, room := room }) rfl with ⟨z', e1, e2, e3, e4⟩ | ⟨e, e1, e2⟩
    · rw [e1, Outcome.bind_ok]
      simp only [dst, Prod.mk.injEq] at e4
      obtain ⟨d1, d2, d3, d4⟩ := e4
      exact main ⟨by simp [start], by simp [start, e3], rfl, by simp⟩ d1 d2 d3 d4 (fun _ => e2)
    · rw [e1, Outcome.bind_throws]
      refine .inr (.inl ⟨e, rfl, fun out' hi => ?_⟩)
      rw [inflates_eq] at hi
      exact absurd (hi.1 rfl) e2

/-! ## What goes with what -/

/-- a place met before the end of the stream is not one of the bad ones -/
theorem meets_blocks {p q : Nat} {out o lax} {lit dist : List Nat} {r : Nat} {out' : List UInt8} (hb : Blocks lax inp p out q o)
    (hm : Meets inp p out lit dist r out') : (∃ q' o', Step lax inp lit dist r out' q' o') ∨ SymAt inp lit r 256 := by
  induction hm generalizing q with
  | here h1 h2 =>
    obtain ⟨x, o', hx⟩ : ∃ x o', Block lax inp (_ + 1) _ x o' := by
      cases hb with
      | last _ h => exact ⟨_, _, h⟩
      | more _ h _ => exact ⟨_, _, h⟩
    cases hx with
    | stored a => have := opens_type h1; omega
    | data a1 a2 =>
      obtain ⟨rfl, rfl, rfl⟩ := opens_det h1 a1
      obtain ⟨k, t, b1, b2, b3⟩ := a2
      obtain ⟨_, c⟩ := steps_prefix b1 b2 h2
      generalize k - _ = j at c
      cases c with
      | refl => exact .inr b2
      | step g _ => exact .inl ⟨_, _, g⟩
  | later h0 h1 _ ih =>
    cases hb with
    | last h _ => omega
    | more _ h2 h3 =>
      obtain ⟨rfl, rfl⟩ := block_det h1 h2
      exact ih h3

theorem writes_blocks {p q : Nat} {out o lax} {out' : List UInt8} (hb : Blocks lax inp p out q o) (hw : Writes inp p out out') : out'.length ≤ o.length := by
  induction hw generalizing q with
  | within hm =>
    induction hm generalizing q with
    | here h1 h2 =>
      obtain ⟨x, o', hx, hle⟩ : ∃ x o', Block true inp (_ + 1) _ x o' ∧ o'.length ≤ o.length := by
        cases hb with
        | last _ h => exact ⟨_, _, block_lax h, Nat.le_refl _⟩
        | more _ h h' => exact ⟨_, _, block_lax h, blocks_length h'⟩
      cases hx with
      | stored a => have := opens_type h1; omega
      | data a1 a2 =>
        obtain ⟨rfl, rfl, rfl⟩ := opens_det h1 a1
        obtain ⟨k, t, b1, b2, b3⟩ := a2
        obtain ⟨_, c⟩ := steps_prefix b1 b2 h2
        exact Nat.le_trans (steps_length c) hle
    | later h0 h1 _ ih =>
      cases hb with
      | last h _ => omega
      | more _ h2 h3 =>
        obtain ⟨rfl, rfl⟩ := block_det h1 h2
        exact ih h3
  | behind h1 =>
    cases hb with
    | last _ h => obtain ⟨rfl, rfl⟩ := block_det h1 h; exact Nat.le_refl _
    | more _ h h' => obtain ⟨rfl, rfl⟩ := block_det h1 h; exact blocks_length h'
  | later h0 h1 _ ih =>
    cases hb with
    | last h _ => omega
    | more _ h2 h3 =>
      obtain ⟨rfl, rfl⟩ := block_det h1 h2
      exact ih h3

/-- a number of symbols in the first block behind a chain, if all blocks are there -/
theorem chain_blocks {p q : Nat} {out o lax} {j p' : Nat} {o' : List UInt8} (hb : Blocks lax inp p out q o) (hc : Chain inp j p out p' o') :
    Blocks true inp p' o' q o := by
  induction hc with
  | refl => exact blocks_lax hb
  | step h0 h1 _ ih =>
    cases hb with
    | last h _ => omega
    | more _ h2 h3 =>
      obtain ⟨rfl, rfl⟩ := block_det h1 h2
      exact ih h3

/-- the number of symbols in a block of a stream -/
theorem block_symbols {p q : Nat} {out o lax} (hb : Blocks lax inp p out q o) {lit dist : List Nat} {s : Nat} (ho : Opens inp (p + 1) lit dist s) :
    ∀ {n r out'}, Steps true inp lit dist n s out r out' → n < q := by
  intro n r out' hs
  obtain ⟨x, o', hx, hle⟩ : ∃ x o', Block true inp (p + 1) out x o' ∧ x ≤ q := by
    have ble : ∀ {lax p q out o}, Blocks lax inp p out q o → p ≤ q := by
      intro lax p q out o h
      induction h with
      | last _ h => have := block_lt h; omega
      | more _ h _ ih => have := block_lt h; omega
    cases hb with
    | last _ h => exact ⟨_, _, block_lax h, Nat.le_refl _⟩
    | more _ h h' => exact ⟨_, _, block_lax h, ble h'⟩
  cases hx with
  | stored a => have := opens_type ho; omega
  | data a1 a2 =>
    obtain ⟨rfl, rfl, rfl⟩ := opens_det ho a1
    obtain ⟨k, t, b1, b2, b3⟩ := a2
    obtain ⟨c1, _⟩ := steps_prefix b1 b2 hs
    have := steps_le b1
    have := b2.1
    omega

end Verif.Inflate
