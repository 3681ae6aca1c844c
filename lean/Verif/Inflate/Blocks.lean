import Verif.Inflate.Refine
import Mathlib.Tactic.IntervalCases

/-!
# Lemmas: blocks
-/

namespace Verif.Inflate

variable {inp : List UInt8}

/-! ## The format says one thing only -/

theorem step_det {lax lax' : Bool} {lit dist : List Nat} {p q q' : Nat} {out o o' : List UInt8} (h : Step lax inp lit dist p out q o)
    (h' : Step lax' inp lit dist p out q' o') : q = q' ∧ o = o' := by
  have add : ∀ {a b : Nat}, 257 + a = 257 + b → a = b := fun h => by omega
  cases h with
  | byte a1 a2 =>
    cases h' with
    | byte b1 b2 => have := sym_unique a2 b2; subst this; exact ⟨rfl, rfl⟩
    | copy b1 b2 => have := sym_unique a2 b2; omega
    | nothing _ b1 b2 => have := sym_unique a2 b2; omega
    | nowhere _ b1 b2 => have := sym_unique a2 b2; omega
  | copy a1 a2 a3 a4 a5 =>
    cases h' with
    | byte b1 b2 => have := sym_unique a2 b2; omega
    | copy b1 b2 b3 b4 b5 =>
      have := add (sym_unique a2 b2); subst this
      have := sym_unique a4 b4; subst this
      exact ⟨rfl, rfl⟩
    | nothing _ b1 b2 => have := sym_unique a2 b2; omega
    | nowhere _ b1 b2 => have := sym_unique a2 b2; omega
  | nothing _ a1 a2 a3 a4 a5 =>
    cases h' with
    | byte b1 b2 => have := sym_unique a2 b2; omega
    | copy b1 b2 b3 b4 b5 => have := sym_unique a2 b2; omega
    | nothing _ b1 b2 b3 b4 b5 =>
      have := add (sym_unique a2 b2); subst this
      have := sym_unique a4 b4; subst this
      exact ⟨rfl, rfl⟩
    | nowhere _ b1 b2 b3 b4 =>
      have := add (sym_unique a2 b2); subst this
      have := sym_unique a4 b4; omega
  | nowhere _ a1 a2 a3 a4 =>
    cases h' with
    | byte b1 b2 => have := sym_unique a2 b2; omega
    | copy b1 b2 b3 b4 b5 => have := sym_unique a2 b2; omega
    | nothing _ b1 b2 b3 b4 b5 =>
      have := add (sym_unique a2 b2); subst this
      have := sym_unique a4 b4; omega
    | nowhere _ b1 b2 b3 b4 =>
      have := add (sym_unique a2 b2); subst this
      have := sym_unique a4 b4; subst this
      exact ⟨rfl, rfl⟩

theorem step_not_end {lax : Bool} {lit dist : List Nat} {p q : Nat} {out o : List UInt8} (h : Step lax inp lit dist p out q o) :
    ¬ SymAt inp lit p 256 := by
  intro he
  cases h with
  | byte a1 a2 => have := sym_unique a2 he; omega
  | copy a1 a2 => have := sym_unique a2 he; omega
  | nothing _ a1 a2 => have := sym_unique a2 he; omega
  | nowhere _ a1 a2 => have := sym_unique a2 he; omega

theorem step_lax {lax : Bool} {lit dist : List Nat} {p q : Nat} {out o : List UInt8} (h : Step lax inp lit dist p out q o) :
    Step true inp lit dist p out q o := by
  cases h with
  | byte a1 a2 => exact .byte a1 a2
  | copy a1 a2 a3 a4 a5 => exact .copy a1 a2 a3 a4 a5
  | nothing _ a1 a2 a3 a4 a5 => exact .nothing rfl a1 a2 a3 a4 a5
  | nowhere _ a1 a2 a3 a4 => exact .nowhere rfl a1 a2 a3 a4

theorem steps_lax {lax : Bool} {lit dist : List Nat} {n p q : Nat} {out o : List UInt8} (h : Steps lax inp lit dist n p out q o) :
    Steps true inp lit dist n p out q o := by
  induction h with
  | refl => exact .refl
  | step h _ ih => exact .step (step_lax h) ih

/-- symbols up to an end, and other symbols from the same place: these are the first of those -/
theorem steps_prefix {lax lax' : Bool} {lit dist : List Nat} {n m p q q' : Nat} {out o o' : List UInt8}
    (h : Steps lax inp lit dist n p out q o) (he : SymAt inp lit q 256) (h' : Steps lax' inp lit dist m p out q' o') :
    m ≤ n ∧ Steps lax inp lit dist (n - m) q' o' q o := by
  induction h' generalizing n with
  | refl => exact ⟨by omega, h⟩
  | step h1 _ ih =>
    cases h with
    | refl => exact absurd he (step_not_end h1)
    | step g1 g2 =>
      obtain ⟨rfl, rfl⟩ := step_det g1 h1
      obtain ⟨i1, i2⟩ := ih g2
      exact ⟨by omega, by rw [Nat.add_sub_add_right]; exact i2⟩

theorem data_det {lax lax' : Bool} {lit dist : List Nat} {p q q' : Nat} {out o o' : List UInt8} (h : Data lax inp lit dist p out q o)
    (h' : Data lax' inp lit dist p out q' o') : q = q' ∧ o = o' := by
  obtain ⟨n, r, a1, a2, rfl⟩ := h
  obtain ⟨m, s, b1, b2, rfl⟩ := h'
  obtain ⟨c1, c2⟩ := steps_prefix a1 a2 b1
  generalize n - m = k at c2
  cases c2 with
  | refl => exact ⟨rfl, rfl⟩
  | step g _ => exact absurd b2 (step_not_end g)

theorem data_lax {lax : Bool} {lit dist : List Nat} {p q : Nat} {out o : List UInt8} (h : Data lax inp lit dist p out q o) :
    Data true inp lit dist p out q o := by
  obtain ⟨n, r, a1, a2, a3⟩ := h
  exact ⟨n, r, steps_lax a1, a2, a3⟩

theorem data_length {lax : Bool} {lit dist : List Nat} {p q : Nat} {out o : List UInt8} (h : Data lax inp lit dist p out q o) :
    out.length ≤ o.length := by
  obtain ⟨n, r, a1, _⟩ := h
  exact steps_length a1

/-! ## Compressed data -/

/-- the places for the output before and after -/
structure Good (z z' : ZBuf) : Prop where
  exp : z'.exp = z.exp
  room : z'.room = z.room
  le : z.out.length ≤ z'.out.length
  cap : z.exp = false → z'.cap = z.cap
  bound : z.exp = true → 1 ≤ z'.cap ∧ z'.cap < 2 ^ 31
  fits : z.out.length ≤ z.cap → z'.out.length ≤ z'.cap
  can : ∀ m, Can z m → z'.out.length ≤ m → Can z' m

theorem Good.trans {a b c : ZBuf} (h : Good a b) (h' : Good b c) : Good a c :=
  { exp := h'.exp.trans h.exp
    room := h'.room.trans h.room
    le := Nat.le_trans h.le h'.le
    cap := fun e => (h'.cap (h.exp.trans e)).trans (h.cap e)
    bound := fun e => h'.bound (h.exp.trans e)
    fits := fun e => h'.fits (h.fits e)
    can := fun m hm hl => h'.can m (h.can m hm (Nat.le_trans h'.le hl)) hl }

theorem good_dst {z z' : ZBuf} (h : dst z' = dst z) (hcap : z.exp = true → 1 ≤ z.cap ∧ z.cap < 2 ^ 31) : Good z z' := by
  simp only [dst, Prod.mk.injEq] at h
  obtain ⟨h1, h2, h3, h4⟩ := h
  exact {
    exp := h3
    room := h4
    le := by rw [h1]
    cap := fun _ => h2
    bound := fun e => by rw [h2]; exact hcap e
    fits := fun e => by rw [h1, h2]; exact e
    can := fun m hm _ => by
      unfold Can at hm ⊢
      rw [h2, h3, h4]; exact hm }

/-- there is a copy of some bytes from distance 0 at the place -/
def Void (inp : List UInt8) (lit dist : List Nat) (p : Nat) : Prop :=
  ∃ l d, l < 29 ∧ SymAt inp lit p (257 + l) ∧ (d = 30 ∨ d = 31) ∧ SymAt inp dist (p + lenOf lit (257 + l) + lenExtra l) d

theorem void_not {lax : Bool} {lit dist : List Nat} {p q : Nat} {out o : List UInt8} (hv : Void inp lit dist p)
    (h : Step lax inp lit dist p out q o) : False := by
  obtain ⟨l, d, v1, v2, v3, v4⟩ := hv
  cases h with
  | byte a1 a2 => have := sym_unique a2 v2; omega
  | copy a1 a2 a3 a4 =>
    have e := Nat.add_left_cancel (sym_unique a2 v2)
    subst e
    have := sym_unique a4 v4
    omega
  | nothing _ a1 a2 => have := sym_unique a2 v2; omega
  | nowhere _ a1 a2 => have := sym_unique a2 v2; omega

theorem void_not_end {lit dist : List Nat} {p : Nat} (hv : Void inp lit dist p) : ¬ SymAt inp lit p 256 := by
  intro h
  obtain ⟨l, d, v1, v2, v3, v4⟩ := hv
  have := sym_unique h v2
  omega

/-- the greatest size of the output -/
def most (z : ZBuf) : Nat := if z.exp then 2 ^ 31 else z.cap

theorem Good.most_eq {a b : ZBuf} (h : Good a b) : most b = most a := by
  unfold most
  rw [h.exp]
  split
  · rfl
  · rename_i he
    exact h.cap (by simpa using he)

/-- what reading compressed data comes to -/
theorem huffman_cases {lit dist : List Nat} {hl hd : Huff} (hc : Codes lit dist hl hd) : ∀ (n : Nat) {z : ZBuf} {p : Nat}, Rep inp z p →
    (z.exp = true → 1 ≤ z.cap ∧ z.cap < 2 ^ 31) →
    (∃ z' q, huffmanBlock hl hd n z = .ok z' ∧ Data true inp lit dist p z.out q z'.out ∧ Rep inp z' q ∧ Good z z') ∨
    (∃ e, huffmanBlock hl hd n z = .throws e ∧ ∀ q out', Data true inp lit dist p z.out q out' → ∀ m, Can z m → ¬ out'.length ≤ m) ∨
    (huffmanBlock hl hd n z = .ub ∧ ∃ k r out', Steps true inp lit dist k p z.out r out' ∧
      (Void inp lit dist r ∨ z.exp = true ∧ 2 ^ 30 < out'.length)) ∨
    (huffmanBlock hl hd n z = .diverges ∧ ∃ r out', Steps true inp lit dist n p z.out r out' ∧ (z.out.length ≤ z.cap → out'.length ≤ most z)) := by
  intro n
  induction n with
  | zero =>
    intro z p hr hcap
    refine .inr (.inr (.inr ⟨rfl, p, z.out, .refl, fun h => ?_⟩))
    unfold most
    split
    · rename_i he; have := hcap he; omega
    · exact h
  | succ n ih =>
    intro z p hr hcap
    rcases huffman_round hc hr hcap n with ⟨z', q, out', e1, e2, e3, e4, e5, e6, e7, e8, e9, e10, e11⟩ | ⟨z', e1, e2, e3, e4⟩ | ⟨e, e1, e2⟩ | ⟨e1, e2⟩
    · subst e4
      have hg : Good z z' := ⟨e5, e6, step_length e2, e8, e9, e10, e11⟩
      rw [e1]
      rcases ih e3 (fun h => e9 (by rw [← e5]; exact h)) with ⟨y, r, f1, ⟨k, s, d1, d2, d3⟩, f3, f4⟩ | ⟨e, f1, f2⟩ | ⟨f1, k, r, o, f2, f3⟩ | ⟨f1, r, o, f2, f3⟩
      · exact .inl ⟨y, r, f1, ⟨k + 1, s, .step e2 d1, d2, d3⟩, f3, hg.trans f4⟩
      · refine .inr (.inl ⟨e, f1, fun r o hd m hm hle => ?_⟩)
        obtain ⟨k, s, d1, d2, d3⟩ := hd
        cases d1 with
        | refl => exact step_not_end e2 d2
        | step g1 g2 =>
          obtain ⟨rfl, rfl⟩ := step_det g1 e2
          exact f2 r o ⟨_, s, g2, d2, d3⟩ m (hg.can m hm (Nat.le_trans (steps_length g2) hle)) hle
      · exact .inr (.inr (.inl ⟨f1, k + 1, r, o, .step e2 f2, by rw [← e5]; exact f3⟩))
      · exact .inr (.inr (.inr ⟨f1, r, o, .step e2 f2, fun h => by rw [← hg.most_eq]; exact f3 (e10 h)⟩))
    · refine .inl ⟨z', _, e1, ⟨0, p, ?_, e2, rfl⟩, e3, good_dst e4 hcap⟩
      have : z'.out = z.out := by simp only [dst, Prod.mk.injEq] at e4; exact e4.1
      rw [this]
      exact .refl
    · refine .inr (.inl ⟨e, e1, fun r o hd m hm hle => ?_⟩)
      obtain ⟨k, s, d1, d2, d3⟩ := hd
      rcases e2 with ⟨g1, g2⟩ | ⟨q, o', g1, _, g2⟩
      · cases d1 with
        | refl => exact g2 d2
        | step h _ => exact g1 _ _ h
      · cases d1 with
        | refl => exact step_not_end g1 d2
        | step h1 h2 =>
          obtain ⟨rfl, rfl⟩ := step_det h1 g1
          exact g2 m hm (Nat.le_trans (steps_length h2) hle)
    · refine .inr (.inr (.inl ⟨e1, ?_⟩))
      rcases e2 with h | ⟨h1, q, o, h2, h3⟩
      · exact ⟨0, p, z.out, .refl, .inl h⟩
      · exact ⟨1, q, o, .step h2 .refl, .inr ⟨h1, h3⟩⟩

/-! ## The codes of a block -/

theorem sizes_set (f : Nat → Nat) : ∀ i, i < 19 → ∃ j, dezigzag[i]? = some j ∧
    ((List.range 19).map fun s => if lenOrder.idxOf s < i then f (lenOrder.idxOf s) else 0).set j (f i) =
      (List.range 19).map fun s => if lenOrder.idxOf s < i + 1 then f (lenOrder.idxOf s) else 0 := by
  intro i hi
  interval_cases i <;> exact ⟨_, rfl, rfl⟩

theorem readSizes_ok {p0 : Nat} : ∀ (n i : Nat) {z : ZBuf}, i + n ≤ 19 → Rep inp z (p0 + 3 * i) →
    ∃ z', readSizes n i (lenLens inp p0 i) z = .ok (lenLens inp p0 (i + n), z') ∧ Rep inp z' (p0 + 3 * (i + n)) ∧ dst z' = dst z := by
  intro n
  induction n with
  | zero => intro i z _ h; exact ⟨z, rfl, h, rfl⟩
  | succ n ih =>
    intro i z hi h
    obtain ⟨y, e1, e2, _, e3⟩ := receive_ok (n := 3) h (by decide)
    obtain ⟨j, j1, j2⟩ := sizes_set (fun k => lsb inp (p0 + 3 * k) 3) i (by omega)
    obtain ⟨z', f1, f2, f3⟩ := ih (i + 1) (z := y) (by omega) (by rw [show p0 + 3 * (i + 1) = p0 + 3 * i + 3 by omega]; exact e2)
    refine ⟨z', ?_, by rw [show i + (n + 1) = i + 1 + n by omega]; exact f2, f3.trans e3⟩
    rw [readSizes, e1, Outcome.bind_ok, tab, j1]
    simp only [Outcome.bind_ok]
    rw [show i + (n + 1) = i + 1 + n by omega, ← f1]
    congr 1

theorem lenLens_le (p n : Nat) : ∀ l ∈ lenLens inp p n, l ≤ 7 := by
  intro l hl
  simp only [lenLens, List.mem_map] at hl
  obtain ⟨s, _, rfl⟩ := hl
  split
  · have := lsb_lt (inp := inp) (p + 3 * lenOrder.idxOf s) 3
    omega
  · omega

theorem lenLens_length (p n : Nat) : (lenLens inp p n).length = 19 := by simp [lenLens]

theorem lens_det {cl : List Nat} {n p q q' : Nat} {acc a a' : List Nat} (h : Lens inp cl n p acc q a) (h' : Lens inp cl n p acc q' a') :
    q = q' ∧ a = a' := by
  induction h with
  | done h1 =>
    cases h' with
    | done => exact ⟨rfl, rfl⟩
    | one b1 => omega
    | same _ _ b => omega
    | zeros _ b => omega
    | many _ b => omega
  | one h1 h2 h3 _ ih =>
    cases h' with
    | done b1 => omega
    | one b1 b2 b3 b4 => have := sym_unique h3 b3; subst this; exact ih b4
    | same _ b _ => have := sym_unique h3 b; omega
    | zeros b _ => have := sym_unique h3 b; omega
    | many b _ => have := sym_unique h3 b; omega
  | same h1 h2 h3 _ ih =>
    cases h' with
    | done b1 => omega
    | one b1 b2 b3 b4 => have := sym_unique h2 b3; omega
    | same b1 _ _ b2 => rw [h1] at b1; cases b1; exact ih b2
    | zeros b _ => have := sym_unique h2 b; omega
    | many b _ => have := sym_unique h2 b; omega
  | zeros h1 h2 _ ih =>
    cases h' with
    | done b1 => omega
    | one b1 b2 b3 b4 => have := sym_unique h1 b3; omega
    | same _ b _ => have := sym_unique h1 b; omega
    | zeros _ _ b => exact ih b
    | many b _ => have := sym_unique h1 b; omega
  | many h1 h2 _ ih =>
    cases h' with
    | done b1 => omega
    | one b1 b2 b3 b4 => have := sym_unique h1 b3; omega
    | same _ b _ => have := sym_unique h1 b; omega
    | zeros b _ => have := sym_unique h1 b; omega
    | many _ _ b => exact ih b

theorem lens_spec {cl : List Nat} {n p q : Nat} {acc a : List Nat} (h : Lens inp cl n p acc q a) (h15 : ∀ l ∈ acc, l ≤ 15) :
    a.length = n ∧ ∀ l ∈ a, l ≤ 15 := by
  have rep : ∀ {k c : Nat} {acc : List Nat}, (∀ l ∈ acc, l ≤ 15) → c ≤ 15 → ∀ l ∈ acc ++ List.replicate k c, l ≤ 15 := by
    intro k c acc h hc l hl
    rw [List.mem_append] at hl
    rcases hl with hl | hl
    · exact h l hl
    · rw [List.eq_of_mem_replicate hl]; exact hc
  induction h with
  | done h => exact ⟨h, h15⟩
  | one h1 h2 _ _ ih => exact ih (rep (k := 1) h15 (by omega))
  | same h1 _ _ _ ih => exact ih (rep h15 (h15 _ (List.mem_of_getLast? h1)))
  | zeros _ _ _ ih => exact ih (rep h15 (by omega))
  | many _ _ _ ih => exact ih (rep h15 (by omega))

theorem putRun_ok {ntot fill c : Nat} {acc : List Nat} (hn : ntot ≤ 320) (h : acc.length + c ≤ ntot) :
    putRun ntot fill c acc = .ok (acc ++ List.replicate c fill) := by
  rw [putRun, if_neg (by omega), put, if_pos (by simp; omega)]

theorem putRun_throws {ntot fill c : Nat} {acc : List Nat} (hle : acc.length ≤ ntot) (h : ¬ acc.length + c ≤ ntot) :
    ∃ e, putRun ntot fill c acc = .throws e := by
  rw [putRun, if_pos (by omega)]
  exact ⟨_, rfl⟩

theorem readCodes_cases {cl : List Nat} {h : Huff} {ntot : Nat} (hf : Fits cl) (hn : cl.length = 19) (hb : Built cl h) (ht : ntot ≤ 320) :
    ∀ (k : Nat) {acc : List Nat} {z : ZBuf} {p : Nat}, Rep inp z p → acc.length ≤ ntot → ntot - acc.length < k →
    (∃ ls z' q, readCodes h ntot k acc z = .ok (ls, z') ∧ Lens inp cl ntot p acc q ls ∧ Rep inp z' q ∧ dst z' = dst z) ∨
    (∃ e, readCodes h ntot k acc z = .throws e ∧ ∀ q ls, ¬ Lens inp cl ntot p acc q ls) := by
  intro k
  induction k with
  | zero => intro acc z p _ _ h; omega
  | succ k ih =>
    intro acc z p hr hle hk
    rw [readCodes]
    split
    · rename_i hlt
      obtain ⟨r, y, y1, y2, y3⟩ := decode_ok hf (by omega) hb hr
      rw [y1, Outcome.bind_ok]
      cases r with
      | none =>
        refine .inr ⟨_, rfl, fun q ls hl => ?_⟩
        simp only at y3
        cases hl with
        | done b1 => omega
        | one b1 b2 b3 b4 => exact y3 _ b3
        | same _ b _ => exact y3 _ b
        | zeros b _ => exact y3 _ b
        | many b _ => exact y3 _ b
      | some c =>
        simp only at y3 ⊢
        obtain ⟨hs, hr'⟩ := y3
        have hc19 := sym_lt hs
        rw [if_neg (by omega)]
        split
        · rename_i hc16
          rw [put, if_pos (by simp; omega), Outcome.bind_ok]
          rcases ih hr' (acc := acc ++ [c]) (by simp; omega) (by simp; omega) with ⟨ls, z', q, f1, f2, f3, f4⟩ | ⟨e, f1, f2⟩
          · exact .inl ⟨ls, z', q, f1, .one hlt hc16 hs f2, f3, f4.trans y2⟩
          · refine .inr ⟨e, f1, fun q ls hl => ?_⟩
            cases hl with
            | done b1 => omega
            | one b1 b2 b3 b4 => have := sym_unique hs b3; subst this; exact f2 _ _ b4
            | same _ b _ => have := sym_unique hs b; omega
            | zeros b _ => have := sym_unique hs b; omega
            | many b _ => have := sym_unique hs b; omega
        · rename_i hc16
          split
          · rename_i h16
            subst h16
            obtain ⟨w, w1, w2, _, w3⟩ := receive_ok (n := 2) hr' (by decide)
            rw [w1, Outcome.bind_ok]
            cases hlast : acc.getLast? with
            | none =>
              refine .inr ⟨_, rfl, fun q ls hl => ?_⟩
              cases hl with
              | done b1 => omega
              | one b1 b2 b3 b4 => have := sym_unique hs b3; omega
              | same b _ _ => rw [hlast] at b; cases b
              | zeros b _ => have := sym_unique hs b; omega
              | many b _ => have := sym_unique hs b; omega
            | some v =>
              simp only
              rw [Nat.add_comm _ 3]
              by_cases hfit : acc.length + (3 + lsb inp (p + lenOf cl 16) 2) ≤ ntot
              · rw [putRun_ok ht hfit, Outcome.bind_ok]
                rcases ih w2 (acc := acc ++ List.replicate (3 + lsb inp (p + lenOf cl 16) 2) v) (by simp; omega) (by simp; omega) with
                  ⟨ls, z', q, f1, f2, f3, f4⟩ | ⟨e, f1, f2⟩
                · exact .inl ⟨ls, z', q, f1, .same hlast hs hfit f2, f3, f4.trans (w3.trans y2)⟩
                · refine .inr ⟨e, f1, fun q ls hl => ?_⟩
                  cases hl with
                  | done b1 => omega
                  | one b1 b2 b3 b4 => have := sym_unique hs b3; omega
                  | same b _ _ b2 => rw [hlast] at b; cases b; exact f2 _ _ b2
                  | zeros b _ => have := sym_unique hs b; omega
                  | many b _ => have := sym_unique hs b; omega
              · obtain ⟨e, he⟩ := putRun_throws (fill := v) hle hfit
                rw [he, Outcome.bind_throws]
                refine .inr ⟨e, rfl, fun q ls hl => ?_⟩
                cases hl with
                | done b1 => omega
                | one b1 b2 b3 b4 => have := sym_unique hs b3; omega
                | same b _ b2 _ => exact hfit b2
                | zeros b _ => have := sym_unique hs b; omega
                | many b _ => have := sym_unique hs b; omega
          · rename_i h16
            split
            · rename_i h17
              subst h17
              obtain ⟨w, w1, w2, _, w3⟩ := receive_ok (n := 3) hr' (by decide)
              rw [w1, Outcome.bind_ok]
              simp only
              rw [Nat.add_comm _ 3]
              by_cases hfit : acc.length + (3 + lsb inp (p + lenOf cl 17) 3) ≤ ntot
              · rw [putRun_ok ht hfit, Outcome.bind_ok]
                rcases ih w2 (acc := acc ++ List.replicate (3 + lsb inp (p + lenOf cl 17) 3) 0) (by simp; omega) (by simp; omega) with
                  ⟨ls, z', q, f1, f2, f3, f4⟩ | ⟨e, f1, f2⟩
                · exact .inl ⟨ls, z', q, f1, .zeros hs hfit f2, f3, f4.trans (w3.trans y2)⟩
                · refine .inr ⟨e, f1, fun q ls hl => ?_⟩
                  cases hl with
                  | done b1 => omega
                  | one b1 b2 b3 b4 => have := sym_unique hs b3; omega
                  | same b b2 => have := sym_unique hs b2; omega
                  | zeros _ _ b => exact f2 _ _ b
                  | many b _ => have := sym_unique hs b; omega
              · obtain ⟨e, he⟩ := putRun_throws (fill := 0) hle hfit
                rw [he, Outcome.bind_throws]
                refine .inr ⟨e, rfl, fun q ls hl => ?_⟩
                cases hl with
                | done b1 => omega
                | one b1 b2 b3 b4 => have := sym_unique hs b3; omega
                | same b b2 => have := sym_unique hs b2; omega
                | zeros _ b _ => exact hfit b
                | many b _ => have := sym_unique hs b; omega
            · rename_i h17
              obtain rfl : c = 18 := by omega
              obtain ⟨w, w1, w2, _, w3⟩ := receive_ok (n := 7) hr' (by decide)
              rw [w1, Outcome.bind_ok]
              simp only
              rw [Nat.add_comm _ 11]
              by_cases hfit : acc.length + (11 + lsb inp (p + lenOf cl 18) 7) ≤ ntot
              · rw [putRun_ok ht hfit, Outcome.bind_ok]
                rcases ih w2 (acc := acc ++ List.replicate (11 + lsb inp (p + lenOf cl 18) 7) 0) (by simp; omega) (by simp; omega) with
                  ⟨ls, z', q, f1, f2, f3, f4⟩ | ⟨e, f1, f2⟩
                · exact .inl ⟨ls, z', q, f1, .many hs hfit f2, f3, f4.trans (w3.trans y2)⟩
                · refine .inr ⟨e, f1, fun q ls hl => ?_⟩
                  cases hl with
                  | done b1 => omega
                  | one b1 b2 b3 b4 => have := sym_unique hs b3; omega
                  | same b b2 => have := sym_unique hs b2; omega
                  | zeros b _ => have := sym_unique hs b; omega
                  | many _ _ b => exact f2 _ _ b
              · obtain ⟨e, he⟩ := putRun_throws (fill := 0) hle hfit
                rw [he, Outcome.bind_throws]
                refine .inr ⟨e, rfl, fun q ls hl => ?_⟩
                cases hl with
                | done b1 => omega
                | one b1 b2 b3 b4 => have := sym_unique hs b3; omega
                | same b b2 => have := sym_unique hs b2; omega
                | zeros b _ => have := sym_unique hs b; omega
                | many _ b _ => exact hfit b
    · rename_i hge
      have heq : acc.length = ntot := by omega
      rw [if_pos heq]
      exact .inl ⟨acc, z, p, rfl, .done heq, hr, rfl⟩

/-- the codes of a block with codes of its own -/
theorem computeCodes_cases {z : ZBuf} {p : Nat} (ht : lsb inp p 2 = 2) (hr : Rep inp z (p + 2)) :
    (∃ hl hd z' lit dist s, computeCodes z = .ok (hl, hd, z') ∧ Opens inp p lit dist s ∧ Codes lit dist hl hd ∧ Rep inp z' s ∧ dst z' = dst z) ∨
    (∃ e, computeCodes z = .throws e ∧ ∀ lit dist s, ¬ Opens inp p lit dist s) := by
  rw [computeCodes]
  obtain ⟨z1, a1, a2, _, a3⟩ := receive_ok (n := 5) hr (by decide)
  rw [a1, Outcome.bind_ok]
  obtain ⟨z2, b1, b2, _, b3⟩ := receive_ok (n := 5) a2 (by decide)
  simp only
  rw [b1, Outcome.bind_ok]
  obtain ⟨z3, c1, c2, _, c3⟩ := receive_ok (n := 4) b2 (by decide)
  simp only
  rw [c1, Outcome.bind_ok]
  simp only [Nat.add_assoc, Nat.reduceAdd] at c2 ⊢
  have l1 := lsb_lt (inp := inp) (p + 2) 5
  have l2 := lsb_lt (inp := inp) (p + 7) 5
  have l3 := lsb_lt (inp := inp) (p + 12) 4
  obtain ⟨z4, d1, d2, d3⟩ := readSizes_ok (inp := inp) (p0 := p + 16) (lsb inp (p + 12) 4 + 4) 0 (by omega) (z := z3) c2
  rw [show lenLens inp (p + 16) 0 = List.replicate 19 0 from rfl, Nat.zero_add] at d1
  rw [Nat.zero_add] at d2
  rw [d1, Outcome.bind_ok]
  simp only
  by_cases hf : Fits (lenLens inp (p + 16) (lsb inp (p + 12) 4 + 4))
  · obtain ⟨h, h1, h2⟩ := build_ok (by rw [lenLens_length]; decide) hf
    rw [h1, Outcome.bind_ok]
    have hopen : ∀ {lit dist s}, Opens inp p lit dist s → ∃ ls, Lens inp (lenLens inp (p + 16) (lsb inp (p + 12) 4 + 4))
        (lsb inp (p + 2) 5 + 257 + (lsb inp (p + 7) 5 + 1)) (p + 16 + 3 * (lsb inp (p + 12) 4 + 4)) [] s ls ∧ lit = ls.take (lsb inp (p + 2) 5 + 257) ∧
        dist = ls.drop (lsb inp (p + 2) 5 + 257) ∧ Fits lit ∧ Fits dist := by
      intro lit dist s ho
      cases ho with
      | fixed h => omega
      | dynamic k1 k2 k3 k4 k5 => exact ⟨_, k3, rfl, rfl, k4, k5⟩
    have hsum : lsb inp (p + 2) 5 + (257 + (lsb inp (p + 7) 5 + 1)) = lsb inp (p + 2) 5 + 257 + (lsb inp (p + 7) 5 + 1) := by omega
    rw [hsum]
    rcases readCodes_cases (ntot := lsb inp (p + 2) 5 + 257 + (lsb inp (p + 7) 5 + 1)) hf (lenLens_length _ _) h2 (by omega) 321 (acc := []) d2 (by simp) (by simp; omega) with
      ⟨ls, z5, q, e1, e2, e3, e4⟩ | ⟨e, e1, e2⟩
    · rw [e1, Outcome.bind_ok]
      simp only
      obtain ⟨s1, s2⟩ := lens_spec e2 (by simp)
      have ht1 : (ls.take (lsb inp (p + 2) 5 + 257)).length ≤ 288 := by rw [List.length_take]; omega
      have hd1 : (ls.drop (lsb inp (p + 2) 5 + 257)).length ≤ 32 := by rw [List.length_drop]; omega
      have only : ∀ {lit dist s}, Opens inp p lit dist s → Fits (ls.take (lsb inp (p + 2) 5 + 257)) ∧ Fits (ls.drop (lsb inp (p + 2) 5 + 257)) := by
        intro lit dist s ho
        obtain ⟨ls', g1, rfl, rfl, g2, g3⟩ := hopen ho
        obtain ⟨_, rfl⟩ := lens_det e2 g1
        exact ⟨g2, g3⟩
      by_cases hfl : Fits (ls.take (lsb inp (p + 2) 5 + 257))
      · obtain ⟨hl, i1, i2⟩ := build_ok ht1 hfl
        rw [i1, Outcome.bind_ok]
        by_cases hfd : Fits (ls.drop (lsb inp (p + 2) 5 + 257))
        · obtain ⟨hd, j1, j2⟩ := build_ok (by omega) hfd
          rw [j1, Outcome.bind_ok]
          exact .inl ⟨hl, hd, z5, _, _, q, rfl, .dynamic ht hf e2 hfl hfd, ⟨hfl, ht1, i2, hfd, hd1, j2⟩, e3, e4.trans (d3.trans (c3.trans (b3.trans a3)))⟩
        · obtain ⟨e, he⟩ := build_throws (fun l hl => s2 l (List.mem_of_mem_drop hl)) hfd
          rw [he, Outcome.bind_throws]
          exact .inr ⟨e, rfl, fun _ _ _ ho => hfd (only ho).2⟩
      · obtain ⟨e, he⟩ := build_throws (fun l hl => s2 l (List.mem_of_mem_take hl)) hfl
        rw [he, Outcome.bind_throws]
        exact .inr ⟨e, rfl, fun _ _ _ ho => hfl (only ho).1⟩
    · rw [e1, Outcome.bind_throws]
      refine .inr ⟨e, rfl, fun lit dist s ho => ?_⟩
      obtain ⟨ls, g1, _⟩ := hopen ho
      exact e2 _ _ g1
  · obtain ⟨e, he⟩ := build_throws (fun l hl => Nat.le_trans (lenLens_le _ _ l hl) (by decide)) hf
    rw [he, Outcome.bind_throws]
    refine .inr ⟨e, rfl, fun lit dist s ho => ?_⟩
    cases ho with
    | fixed h => omega
    | dynamic _ h => exact hf h

end Verif.Inflate
